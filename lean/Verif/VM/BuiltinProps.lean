import Verif.VM.BuiltinLemmas
/-
Properties of Ethereum's nine standard contracts: what they cost and what they answer, for every input.

`exec L n d gas` is a call of the contract at address `n` with input `d` and `gas`: the answer and the gas left.
Numbers and fields of the input are read with zeros behind its end (Std.Spec).  A length of input is below 2^63, as
in Go; a call never has 2^64 - 1 gas or more.
-/
namespace Std
open Spec

/-- **Modular powers** (address 5): the price is that of EIP-2565, and who pays it gets the power modulo the modulus,
in as many bytes as the modulus has — for all lengths of the three numbers, also beyond the end of the input. -/
theorem modexp_runs (L : Lib) {d : List UInt8} {gas : Nat} (hd : d.length < 2 ^ 63) (hg : gas < 2 ^ 64 - 1) :
    (modexpPrice d ≤ gas → ∃ out, exec L 5 d gas = (.ok out, gas - modexpPrice d) ∧ IsModexp d out) ∧
    (gas < modexpPrice d → exec L 5 d gas = (.err, 0)) := by
  have hd' : d.length < 9223372036854775808 := hd
  have hg' : gas < 18446744073709551615 := hg
  have he : gasOf 5 d = some (min 18446744073709551615 (modexpPrice d)) := modexpGas_eq hd'
  constructor
  · intro h
    obtain ⟨out, ho, hs⟩ := modexp_spec hd' (Nat.lt_of_le_of_lt h hg')
    refine ⟨out, ?_, hs⟩
    rw [Nat.min_eq_right (by omega)] at he
    exact exec_ok he h (by show orPanic (modexp d) = _; rw [ho]; rfl)
  · intro h
    exact exec_low he (by omega)

/-- There is one answer only. -/
theorem modexp_one {d a b : List UInt8} (ha : IsModexp d a) (hb : IsModexp d b) : a = b := by
  obtain ⟨la, na⟩ := ha
  obtain ⟨lb, nb⟩ := hb
  apply beNat_inj (by rw [la, lb])
  rw [← num_self la, ← num_self lb]
  exact na.trans nb.symm

/-- **Copies** (address 4): the answer is the input; 15 gas and 3 a word. -/
theorem copy_runs (L : Lib) {d : List UInt8} {gas w : Nat} (hw : IsWords d.length w) :
    exec L 4 d gas = if 15 + 3 * w ≤ gas then (.ok d, gas - (15 + 3 * w)) else (.err, 0) := by
  have he : gasOf 4 d = some (15 + 3 * w) := by
    show some _ = some _
    obtain ⟨h1, h2⟩ := hw
    congr 1; omega
  split
  · next h => exact exec_ok he h rfl
  · next h => exact exec_low he (by omega)

/-- **SHA-256** (address 2): 60 gas and 12 a word. -/
theorem sha256_runs (L : Lib) {d : List UInt8} {gas w : Nat} (hw : IsWords d.length w) :
    exec L 2 d gas = if 60 + 12 * w ≤ gas then (.ok (L.sha256 d), gas - (60 + 12 * w)) else (.err, 0) := by
  have he : gasOf 2 d = some (60 + 12 * w) := by
    show some _ = some _
    obtain ⟨h1, h2⟩ := hw
    congr 1; omega
  split
  · next h => exact exec_ok he h rfl
  · next h => exact exec_low he (by omega)

/-- **RIPEMD-160** (address 3): twelve zeros and the twenty bytes of the hash; 600 gas and 120 a word. -/
theorem ripemd_runs (L : Lib) (hr : ∀ b, (L.ripemd b).length = 20) {d : List UInt8} {gas w : Nat}
    (hw : IsWords d.length w) :
    exec L 3 d gas = if 600 + 120 * w ≤ gas then (.ok (List.replicate 12 0 ++ L.ripemd d), gas - (600 + 120 * w))
      else (.err, 0) := by
  have he : gasOf 3 d = some (600 + 120 * w) := by
    show some _ = some _
    obtain ⟨h1, h2⟩ := hw
    congr 1; omega
  split
  · next h =>
    refine exec_ok he h ?_
    show Out.ok (leftPad (L.ripemd d) 32) = _
    rw [leftPad_of_length (hr d) (by omega)]
  · next h => exact exec_low he (by omega)

/-- **Signers** (address 1): never a failure for 3000 gas; the address of the recovered key — twelve zeros and the
last twenty bytes of its hash — exactly where v is 27 or 28, r and s are within the order of the curve and a key is
recovered; nothing otherwise. -/
theorem signer_runs (L : Lib) (hk : ∀ b, (L.keccak b).length = 32) {d : List UInt8} {gas : Nat} :
    ∃ out, exec L 1 d gas = (if 3000 ≤ gas then (.ok out, gas - 3000) else (.err, 0)) ∧
      (∀ k, Plausible d → L.recover (field d 0 32) (field d 64 64 ++ [byteAt d 63 - 27]) = some k →
        out = List.replicate 12 0 ++ (L.keccak (k.drop 1)).drop 12) ∧
      ((¬Plausible d ∨ L.recover (field d 0 32) (field d 64 64 ++ [byteAt d 63 - 27]) = none) → out = []) := by
  refine ⟨ecrecover L d, ?_, ?_, ?_⟩
  · split
    · next h => exact exec_ok (g := 3000) rfl h rfl
    · next h => exact exec_low (g := 3000) rfl (by omega)
  · intro k hp hr
    rw [← plausible_iff] at hp
    rw [ecrecover_eq, if_neg (by rw [hp.1, hp.2]; simp), hr]
    dsimp only
    rw [leftPad_of_length (n := 20) (by rw [List.length_drop, hk]) (by omega)]
  · intro h
    rw [ecrecover_eq]
    split
    · rfl
    · next hn =>
      have hp : Plausible d := by
        rw [← plausible_iff]
        constructor
        · cases hz : allZero (field d 32 31) with
          | true => rfl
          | false => exact absurd (Or.inl hz) hn
        · cases hz : validSig (byteAt d 63 - 27) (num d 64 32) (num d 96 32) with
          | true => rfl
          | false => exact absurd (Or.inr hz) hn
      rcases h with h | h
      · exact absurd hp h
      · rw [h]

/-- **Sums of points** (address 6), 150 gas: of the points in the first and the next 64 bytes; a failure where one of
them is no point. -/
theorem add_runs (L : Lib) {d : List UInt8} {gas : Nat} :
    exec L 6 d gas = match L.readG1 (field d 0 64), L.readG1 (field d 64 64) with
      | some x, some y => if 150 ≤ gas then (.ok (L.writeG1 (L.add x y)), gas - 150) else (.err, 0)
      | _, _ => (.err, 0) := by
  have hr : runOf L 6 d = orErr (bnAdd L d) := rfl
  unfold bnAdd at hr
  rw [getData_eq (by omega) (by omega), getData_eq (by omega) (by omega)] at hr
  cases hx : L.readG1 (field d 0 64) with
  | none =>
    refine exec_err (g := 150) rfl ?_
    rw [hr]; simp [hx, orErr]
  | some x =>
    cases hy : L.readG1 (field d 64 64) with
    | none =>
      refine exec_err (g := 150) rfl ?_
      rw [hr]; simp [hx, hy, orErr]
    | some y =>
      dsimp only
      split
      · next h =>
        refine exec_ok (g := 150) rfl h ?_
        rw [hr]; simp [hx, hy, orErr]
      · next h => exact exec_low (g := 150) rfl (by omega)

/-- **Multiples of points** (address 7), 6000 gas: of the point in the first 64 bytes by the number in the next 32. -/
theorem mul_runs (L : Lib) {d : List UInt8} {gas : Nat} :
    exec L 7 d gas = match L.readG1 (field d 0 64) with
      | some x => if 6000 ≤ gas then (.ok (L.writeG1 (L.mul x (num d 64 32))), gas - 6000) else (.err, 0)
      | none => (.err, 0) := by
  have hr : runOf L 7 d = orErr (bnMul L d) := rfl
  unfold bnMul at hr
  rw [getData_eq (by omega) (by omega), getData_eq (by omega) (by omega)] at hr
  cases hx : L.readG1 (field d 0 64) with
  | none =>
    refine exec_err (g := 6000) rfl ?_
    rw [hr]; simp [hx, orErr]
  | some x =>
    dsimp only
    split
    · next h =>
      refine exec_ok (g := 6000) rfl h ?_
      rw [hr]; simp [hx, orErr, beNat_field]
    · next h => exact exec_low (g := 6000) rfl (by omega)

/-- **Pairings** (address 8), 45000 gas and 34000 a pair: for `k` pairs of points in 192 bytes each, one or zero in 32
bytes according to the pairing check of them all. -/
theorem pairing_runs (L : Lib) {d : List UInt8} {gas k : Nat} (hd : d.length = 192 * k)
    {ps : List (L.G1 × L.G2)} (hl : ps.length = k)
    (hp : ∀ (i : Nat) p, ps[i]? = some p →
      L.readG1 (field d (192 * i) 64) = some p.1 ∧ L.readG2 (field d (192 * i + 64) 128) = some p.2) :
    exec L 8 d gas = if 45000 + 34000 * k ≤ gas
      then (.ok (List.replicate 31 0 ++ [if L.pairing ps then 1 else 0]), gas - (45000 + 34000 * k))
      else (.err, 0) := by
  have hk : d.length / 192 = k := by omega
  have he : gasOf 8 d = some (45000 + 34000 * k) := by
    show some (45000 + d.length / 192 * 34000) = _
    rw [hk, Nat.mul_comm]
  have hr : runOf L 8 d = .ok (List.replicate 31 0 ++ [if L.pairing ps then 1 else 0]) := by
    show orErr (bnPairing L d) = _
    unfold bnPairing
    rw [if_neg (by omega), hk, (readPairs_some hd).2 ⟨hl, hp⟩]
    show Out.ok _ = Out.ok _
    cases L.pairing ps <;> rfl
  split
  · next h => exact exec_ok he h hr
  · next h => exact exec_low he (by omega)

/-- An input that is not made of pairs of points fails. -/
theorem pairing_fails (L : Lib) {d : List UInt8} {gas : Nat}
    (h : ¬∃ k, ∃ ps : List (L.G1 × L.G2), d.length = 192 * k ∧ ps.length = k ∧ ∀ (i : Nat) p, ps[i]? = some p →
      L.readG1 (field d (192 * i) 64) = some p.1 ∧ L.readG2 (field d (192 * i + 64) 128) = some p.2) :
    exec L 8 d gas = (.err, 0) := by
  refine exec_err (g := 45000 + d.length / 192 * 34000) rfl ?_
  show orErr (bnPairing L d) = _
  unfold bnPairing
  split
  · rfl
  · next hm =>
    have hd : d.length = 192 * (d.length / 192) := by omega
    cases hr : readPairs L (d.length / 192) d with
    | none => rfl
    | some ps => exact absurd ⟨_, ps, hd, (readPairs_some hd).1 hr⟩ h

/-- **BLAKE2b** (address 9), one gas a round: 213 bytes with a last byte of zero or one, all words but the rounds with
their lowest byte first; the answer are the eight words of the new state. -/
theorem blake_runs (L : Lib) (hL : ∀ h m t f r, (L.blakeF h m t f r).length = 8 ∧ ∀ x ∈ L.blakeF h m t f r, x < 2 ^ 64)
    {d : List UInt8} {gas : Nat} (hd : d.length = 213) (hf : byteAt d 212 = 0 ∨ byteAt d 212 = 1) :
    ∃ out, exec L 9 d gas = (if num d 0 4 ≤ gas then (.ok out, gas - num d 0 4) else (.err, 0)) ∧
      out.length = 64 ∧
      ∀ i x, (L.blakeF ((List.range 8).map fun i => le d (4 + 8 * i) 8) ((List.range 16).map fun i => le d (68 + 8 * i) 8)
        [le d 196 8, le d 204 8] (byteAt d 212 == 1) (num d 0 4))[i]? = some x → le out (8 * i) 8 = x := by
  have h4 : beNat (d.take 4) = num d 0 4 := by
    have := slice_field (d := d) (o := 0) (n := 4) (by omega)
    rw [List.drop_zero] at this
    rw [this, beNat_field]
  have hb : d.getD 212 0 = byteAt d 212 := by
    rw [List.getD_eq_getElem?_getD]; rfl
  have hg : gasOf 9 d = some (num d 0 4) := by
    show some (blakeGas d) = _
    unfold blakeGas
    rw [if_neg (by omega), h4]
  have hr : blake2F L d = some ((L.blakeF ((List.range 8).map fun i => le d (4 + 8 * i) 8)
      ((List.range 16).map fun i => le d (68 + 8 * i) 8) [le d 196 8, le d 204 8] (byteAt d 212 == 1)
      (num d 0 4)).flatMap (lePut 8)) := by
    unfold blake2F
    rw [if_neg (by omega), hb, if_neg (by rcases hf with h | h <;> simp [h])]
    dsimp only
    rw [leWords_eq (by omega), leWords_eq (by omega), leWords_eq (by omega), h4]
    rw [List.take_of_length_le (by rw [(hL _ _ _ _ _).1]; omega)]
    rfl
  have hrun := hr
  generalize he : L.blakeF ((List.range 8).map fun i => le d (4 + 8 * i) 8)
      ((List.range 16).map fun i => le d (68 + 8 * i) 8) [le d 196 8, le d 204 8] (byteAt d 212 == 1)
      (num d 0 4) = ws at hrun ⊢
  have hl : ws.length = 8 := by rw [← he]; exact (hL _ _ _ _ _).1
  have hs : ∀ x ∈ ws, x < 2 ^ 64 := by rw [← he]; exact (hL _ _ _ _ _).2
  refine ⟨ws.flatMap (lePut 8), ?_, ?_, ?_⟩
  · split
    · next h => exact exec_ok hg h (by show orErr (blake2F L d) = _; rw [hrun]; rfl)
    · next h => exact exec_low hg (by omega)
  · rw [flat_length, hl]
  · intro i x hx
    rw [flat_word hx]
    exact Nat.mod_eq_of_lt (hs x (List.mem_of_getElem? hx))

/-- Any other input fails. -/
theorem blake_fails (L : Lib) {d : List UInt8} {gas : Nat}
    (h : d.length ≠ 213 ∨ (byteAt d 212 ≠ 0 ∧ byteAt d 212 ≠ 1)) : exec L 9 d gas = (.err, 0) := by
  refine exec_err (g := blakeGas d) rfl ?_
  show orErr (blake2F L d) = _
  have hb : d.getD 212 0 = byteAt d 212 := by
    rw [List.getD_eq_getElem?_getD]; rfl
  unfold blake2F
  rw [hb]
  split
  · rfl
  · next hl => rw [if_pos (h.resolve_left hl)]; rfl

/-- **No input brings the program down**, and no call has more gas after it than before; a failure takes all of it. -/
theorem calls_end (L : Lib) {n : Nat} (hn : 1 ≤ n ∧ n ≤ 9) {d : List UInt8} {gas : Nat} (hd : d.length < 2 ^ 63)
    (hg : gas < 2 ^ 64 - 1) :
    (∃ out left, exec L n d gas = (.ok out, left) ∧ left ≤ gas) ∨ exec L n d gas = (.err, 0) := by
  have gen : ∀ g, gasOf n d = some g → runOf L n d ≠ .panic →
      (∃ out left, exec L n d gas = (.ok out, left) ∧ left ≤ gas) ∨ exec L n d gas = (.err, 0) := by
    intro g h1 h2
    by_cases h : gas < g
    · exact Or.inr (exec_low h1 h)
    · cases hr : runOf L n d with
      | ok b => exact Or.inl ⟨b, gas - g, exec_ok h1 (by omega) hr, by omega⟩
      | err => exact Or.inr (exec_err h1 hr)
      | panic => exact absurd hr h2
  have hne : ∀ o : Option Bytes, orErr o ≠ .panic := fun o => by cases o <;> exact (fun h => nomatch h)
  by_cases h5 : n = 5
  · subst h5
    obtain ⟨m1, m2⟩ := modexp_runs L hd hg
    by_cases h : modexpPrice d ≤ gas
    · obtain ⟨out, ho, _⟩ := m1 h
      exact Or.inl ⟨out, _, ho, by omega⟩
    · exact Or.inr (m2 (by omega))
  · have hc : n = 1 ∨ n = 2 ∨ n = 3 ∨ n = 4 ∨ n = 6 ∨ n = 7 ∨ n = 8 ∨ n = 9 := by omega
    rcases hc with rfl | rfl | rfl | rfl | rfl | rfl | rfl | rfl
    · exact gen _ rfl (fun h => nomatch h)
    · exact gen _ rfl (fun h => nomatch h)
    · exact gen _ rfl (fun h => nomatch h)
    · exact gen _ rfl (fun h => nomatch h)
    · exact gen _ rfl (hne _)
    · exact gen _ rfl (hne _)
    · exact gen _ rfl (hne _)
    · exact gen _ rfl (hne _)

/-! ### The hypotheses can be met -/

/-- A toy library: points are read from 64 or 128 bytes that begin with a zero. -/
def toy : Lib where
  recover := fun h s => if h.length = 32 ∧ s.length = 65 then some (4 :: h) else none
  keccak := fun b => List.replicate 31 7 ++ [UInt8.ofNat b.length]
  sha256 := fun b => List.replicate 31 2 ++ [UInt8.ofNat b.length]
  ripemd := fun b => List.replicate 19 3 ++ [UInt8.ofNat b.length]
  G1 := Nat
  G2 := Nat
  readG1 := fun b => if b.head? = some 0 then some (beNat b) else none
  readG2 := fun b => if b.head? = some 0 then some (beNat b) else none
  writeG1 := fun n => lePut 64 n
  add := fun a b => a + b
  mul := fun a n => a * n
  pairing := fun l => l.all fun p => p.1 == p.2
  blakeF := fun h _ t f r => (h.map fun x => (x + r + (if f then 1 else 0) + t.headD 0) % 2 ^ 64).take 8 ++
    List.replicate (8 - (h.take 8).length) 0

/-- 3 ^ 5 mod 100 = 43, each number in one byte. -/
def three : List UInt8 := List.replicate 31 0 ++ [1] ++ List.replicate 31 0 ++ [1] ++ List.replicate 31 0 ++ [2] ++
  [3, 5, 0, 100]
example : exec toy 5 three 250 = (.ok [0, 43], 50) := by decide +kernel
example : exec toy 5 three 199 = (.err, 0) := by decide +kernel
/-- Lengths beyond the end of the input: 3 ^ 0 mod 0 in two bytes. -/
example : exec toy 5 (three.take 97) 250 = (.ok [0, 0], 50) := by decide +kernel
/-- A base of 2^64 bytes cannot be paid for. -/
example : (exec toy 5 (List.replicate 23 0 ++ [1] ++ List.replicate 72 0) 1000000000000).1 = .err := by decide +kernel
example : exec toy 4 [1, 2, 3] 20 = (.ok [1, 2, 3], 2) := by decide +kernel
example : IsWords 33 2 := ⟨by omega, by omega⟩
example : exec toy 3 [] 600 = (.ok (List.replicate 12 0 ++ List.replicate 19 3 ++ [0]), 0) := by decide +kernel
example : ∀ b, (toy.ripemd b).length = 20 := fun b => by simp [toy]
example : ∀ b, (toy.keccak b).length = 32 := fun b => by simp [toy]
example : ∀ h m t f r, (toy.blakeF h m t f r).length = 8 ∧ ∀ x ∈ toy.blakeF h m t f r, x < 2 ^ 64 := by
  intro h m t f r
  constructor
  · simp [toy]; omega
  · intro x hx
    rcases List.mem_append.1 hx with hx | hx
    · obtain ⟨y, -, rfl⟩ := List.mem_map.1 (List.mem_of_mem_take hx)
      exact Nat.mod_lt _ (by decide)
    · rw [(List.mem_replicate.1 hx).2]; decide
/-- A signature that can be looked at, and one with v = 29. -/
example : exec toy 1 (List.replicate 63 0 ++ [28] ++ List.replicate 31 0 ++ [1] ++ List.replicate 31 0 ++ [1]) 3001 =
    (.ok (List.replicate 12 0 ++ List.replicate 19 7 ++ [32]), 1) := by decide +kernel
example : exec toy 1 (List.replicate 63 0 ++ [29] ++ List.replicate 31 0 ++ [1] ++ List.replicate 31 0 ++ [1]) 3001 =
    (.ok [], 1) := by decide +kernel
example : exec toy 6 (List.replicate 63 0 ++ [28] ++ List.replicate 63 0 ++ [2]) 150 = (.ok (lePut 64 30), 0) := by
  decide +kernel
example : exec toy 6 [1] 150 = (.err, 0) := by decide +kernel
example : exec toy 7 (List.replicate 63 0 ++ [28] ++ List.replicate 31 0 ++ [2]) 6000 = (.ok (lePut 64 56), 0) := by
  decide +kernel
example : exec toy 8 (List.replicate 63 0 ++ [28] ++ List.replicate 127 0 ++ [28]) 79000 =
    (.ok (List.replicate 31 0 ++ [1]), 0) := by decide +kernel
example : exec toy 8 (List.replicate 191 0) 79000 = (.err, 0) := by decide +kernel
example : exec toy 9 ([0, 0, 0, 2] ++ [5] ++ List.replicate 207 0 ++ [1]) 2 =
    (.ok ((8 :: List.replicate 7 3).flatMap (lePut 8)), 0) := by decide +kernel
example : exec toy 9 ([0, 0, 0, 2] ++ [5] ++ List.replicate 207 0 ++ [2]) 2 = (.err, 0) := by decide +kernel

end Std
