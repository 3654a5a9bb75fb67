import Verif.EthTx.WrapLemmas
/-!
# C88: an Ethereum transaction survives being wrapped in a message

Full statement: the message made from a signed Ethereum transaction stands for exactly this transaction, so
that its hash and its signer are the ones of the wallet; it is made unless a number has more than 256 bits,
and admitted exactly if gas limit, fee, tip and chain are in order; a message is admitted only with the hash
of the transaction it stands for; and a transaction has one form as a message.

All but the last is proved, with two exceptions: a chain number of more than 256 bits is not refused, it
makes the code panic (`huge_chain_panics`). The last is false (`forms_not_unique`).
-/

namespace Wrap

open Addr

/-- **C88.** The message made from a transaction stands for this transaction and has its hash. -/
theorem wrap_roundtrip (up : List Nat → Nat → Bool) (H : Tx → List Nat) (tx : Tx) (hd : Decoded tx) (m : Msg)
    (h : fromTx up H tx = .ok m) : asTx m.data = tx ∧ m.hash = hashString (H tx) ∧ m.from_ = [] := by
  obtain ⟨k, nonce, gas, to, value, data, v, r, s⟩ := tx
  obtain ⟨hk, hto, hv, h1, h2, h3⟩ := hd
  unfold fromTx ofTx at h
  dsimp only at *
  split at h
  · rename_i d he
    cases h
    refine ⟨?_, rfl, rfl⟩
    split at he
    · split at he
      · rename_i k' hk'
        cases he
        unfold asTx
        dsimp only
        rw [ofBytes_bytes h1, ofBytes_bytes h2, ofBytes_bytes h3]
        congr 1
        · cases k with
          | legacy price =>
            unfold kindData at hk'
            dsimp only at hk'
            split at hk'
            · cases hk'; rfl
            · cases hk'
          | access chain price l =>
            unfold kindData at hk'
            dsimp only at hk'
            split at hk'
            · split at hk'
              · cases hk'
                show Kind.access chain price (readAccesses (textAccesses up l)) = _
                rw [read_text up l hk.2.2]
              · cases hk'
            · cases hk'
          | dynamic chain tip cap l =>
            unfold kindData at hk'
            dsimp only at hk'
            split at hk'
            · split at hk'
              · cases hk'
                show Kind.dynamic chain tip cap (readAccesses (textAccesses up l)) = _
                rw [read_text up l hk.2.2.2]
              · cases hk'
            · cases hk'
        · cases to with
          | none => rfl
          | some a => unfold toText; dsimp only; rw [if_neg (hexString_ne_nil _ _), hexToAddress_text _ (hto a rfl)]
      · cases he
      · cases he
    · cases he
  · cases h
  · cases h

/-- Different transactions have different messages. -/
theorem wrap_injective (up : List Nat → Nat → Bool) (H : Tx → List Nat) (tx tx' : Tx) (hd : Decoded tx) (hd' : Decoded tx')
    (m m' : Msg) (h : fromTx up H tx = .ok m) (h' : fromTx up H tx' = .ok m') (he : m.data = m'.data) : tx = tx' := by
  rw [← (wrap_roundtrip up H tx hd m h).1, ← (wrap_roundtrip up H tx' hd' m' h').1, he]

/-- A transaction as a wallet signs it: dynamic fees, an access list with one key. -/
def wallet : Tx :=
  ⟨.dynamic 42000 7 1000 [(List.replicate 19 0 ++ [200], [List.replicate 31 0 ++ [171]])], 5, 21000,
    some (List.replicate 19 17 ++ [250]), 300, [1, 2, 3], 1, 70000, 80000⟩

/-- A legacy transaction that creates a contract. -/
def creation : Tx := ⟨.legacy 1000, 0, 90000, none, 0, [96, 0], 84035, 5, 256⟩

/-- Capitals as EIP-55 might ask for them. -/
def caps (_ : List Nat) (i : Nat) : Bool := i % 3 == 0

/-- A stand-in for the hash of a transaction. -/
def toyHash (tx : Tx) : List Nat := List.replicate 31 0 ++ [(tx.nonce + tx.gas) % 256]

theorem wallet_decoded : Decoded wallet :=
  ⟨⟨by decide, by decide, by decide, by decide +kernel⟩, fun a h => by cases h; decide +kernel, by decide, by decide, by decide, by decide⟩

theorem creation_decoded : Decoded creation :=
  ⟨(by decide : (0 : Int) ≤ 1000), (fun a h => nomatch h), by decide, by decide, by decide, by decide⟩

/-- A function of Go that has gone well. -/
def Res.isOk {α : Type} : Res α → Bool
  | .ok _ => true
  | _ => false

example : (fromTx caps toyHash wallet).isOk = true ∧ (fromTx caps toyHash creation).isOk = true := by decide +kernel

theorem three_ok {x : Msg} {A C : Prop} (a : A) (c : C) :
    ((Res.ok x).isOk = true ↔ A ∧ C) ∧ (Res.ok x = .error ↔ ¬ A) ∧ (Res.ok x = .panic ↔ A ∧ ¬ C) :=
  ⟨⟨fun _ => ⟨a, c⟩, fun _ => rfl⟩, ⟨(fun h => nomatch h), fun h => absurd a h⟩,
    ⟨(fun h => nomatch h), fun h => absurd c h.2⟩⟩

theorem three_error {A C : Prop} (a : ¬ A) :
    ((Res.error : Res Msg).isOk = true ↔ A ∧ C) ∧ ((Res.error : Res Msg) = .error ↔ ¬ A) ∧
    ((Res.error : Res Msg) = .panic ↔ A ∧ ¬ C) :=
  ⟨⟨(fun h => nomatch h), fun h => absurd h.1 a⟩, ⟨fun _ => a, fun _ => rfl⟩,
    ⟨(fun h => nomatch h), fun h => absurd h.1 a⟩⟩

theorem three_panic {A C : Prop} (a : A) (c : ¬ C) :
    ((Res.panic : Res Msg).isOk = true ↔ A ∧ C) ∧ ((Res.panic : Res Msg) = .error ↔ ¬ A) ∧
    ((Res.panic : Res Msg) = .panic ↔ A ∧ ¬ C) :=
  ⟨⟨(fun h => nomatch h), fun h => absurd h.2 c⟩, ⟨(fun h => nomatch h), fun h => absurd a h⟩,
    ⟨fun _ => ⟨a, c⟩, fun _ => rfl⟩⟩

/-- **C88 (what is wrapped).** Transactions whose amounts and chain number have at most 256 bits are, and
no others: too great amounts are refused, a too great chain number makes the code panic. -/
theorem wrap_outcome (up : List Nat → Nat → Bool) (H : Tx → List Nat) (tx : Tx) (hd : Decoded tx) :
    ((fromTx up H tx).isOk = true ↔ AmountsFit tx ∧ ChainFits tx) ∧
    (fromTx up H tx = .error ↔ ¬ AmountsFit tx) ∧
    (fromTx up H tx = .panic ↔ AmountsFit tx ∧ ¬ ChainFits tx) := by
  obtain ⟨k, nonce, gas, to, value, data, v, r, s⟩ := tx
  obtain ⟨hk, _, hv, _, _, _⟩ := hd
  unfold fromTx ofTx AmountsFit ChainFits
  dsimp only at *
  by_cases h1 : value < 2 ^ 256
  · rw [if_pos ((valid256_iff hv).2 h1)]
    cases k with
    | legacy price =>
      dsimp only at *
      unfold kindData
      dsimp only
      by_cases h2 : price < 2 ^ 256
      · rw [if_pos ((valid256_iff hk).2 h2)]
        exact three_ok ⟨h1, h2⟩ trivial
      · rw [if_neg (fun h => h2 ((valid256_iff hk).1 h))]
        exact three_error fun h => h2 h.2
    | access chain price l =>
      dsimp only at *
      unfold kindData
      dsimp only
      by_cases h2 : price < 2 ^ 256
      · rw [if_pos ((valid256_iff hk.2.1).2 h2)]
        by_cases h3 : chain < 2 ^ 256
        · rw [if_pos ((valid256_iff hk.1).2 h3)]
          exact three_ok ⟨h1, h2⟩ h3
        · rw [if_neg (fun h => h3 ((valid256_iff hk.1).1 h))]
          exact three_panic ⟨h1, h2⟩ h3
      · rw [if_neg (fun h => h2 ((valid256_iff hk.2.1).1 h))]
        exact three_error fun h => h2 h.2
    | dynamic chain tip cap l =>
      dsimp only at *
      unfold kindData
      dsimp only
      by_cases h2 : tip < 2 ^ 256 ∧ cap < 2 ^ 256
      · rw [if_pos (by rw [(valid256_iff hk.2.1).2 h2.1, (valid256_iff hk.2.2.1).2 h2.2]; rfl)]
        by_cases h3 : chain < 2 ^ 256
        · rw [if_pos ((valid256_iff hk.1).2 h3)]
          exact three_ok ⟨h1, h2⟩ h3
        · rw [if_neg (fun h => h3 ((valid256_iff hk.1).1 h))]
          exact three_panic ⟨h1, h2⟩ h3
      · rw [if_neg (fun h => h2 (by
          rw [Bool.and_eq_true, valid256_iff hk.2.1, valid256_iff hk.2.2.1] at h; exact ⟨h.2, h.1⟩))]
        exact three_error fun h => h2 h.2
  · rw [if_neg (fun h => h1 ((valid256_iff hv).1 h))]
    exact three_error fun h => h1 h.1

/-- A chain number of 257 bits. -/
theorem huge_chain_panics : ∃ tx, Decoded tx ∧ AmountsFit tx ∧ fromTx caps toyHash tx = .panic :=
  ⟨⟨.access (2 ^ 256) 1 [], 0, 21000, none, 0, [], 0, 1, 1⟩,
    ⟨⟨by decide, by decide, by decide⟩, (fun a h => nomatch h), by decide, by decide, by decide, by decide⟩,
    ⟨by decide, (by decide : (1 : Int) < 2 ^ 256)⟩, by decide +kernel⟩

/-- What validation asks of a price. -/
theorem priceOk_iff {p : Int} {gas : Nat} : priceOk (some p) gas = true ↔ 0 ≤ p ∧ p < 2 ^ 256 ∧ p * gas < 2 ^ 256 := by
  unfold priceOk
  rw [Bool.and_eq_true, Bool.and_eq_true, decide_eq_true_iff, and_assoc]
  constructor
  · intro ⟨h1, h2, h3⟩
    exact ⟨h1, (valid256_iff h1).1 h2, (valid256_iff (Int.mul_nonneg h1 (Int.natCast_nonneg _))).1 h3⟩
  · intro ⟨h1, h2, h3⟩
    exact ⟨h1, (valid256_iff h1).2 h2, (valid256_iff (Int.mul_nonneg h1 (Int.natCast_nonneg _))).2 h3⟩

/-- What it asks of the caps. -/
theorem capsOk_iff {t c : Int} {gas : Nat} : capsOk (some t) (some c) gas = true ↔
    0 ≤ t ∧ 0 ≤ c ∧ t < 2 ^ 256 ∧ c < 2 ^ 256 ∧ t ≤ c ∧ c * gas < 2 ^ 256 := by
  unfold capsOk
  simp only [Bool.and_eq_true, decide_eq_true_iff]
  constructor
  · intro ⟨⟨⟨⟨⟨h1, h2⟩, h3⟩, h4⟩, h5⟩, h6⟩
    exact ⟨h1, h2, (valid256_iff h1).1 h3, (valid256_iff h2).1 h4, h5,
      (valid256_iff (Int.mul_nonneg h2 (Int.natCast_nonneg _))).1 h6⟩
  · intro ⟨h1, h2, h3, h4, h5, h6⟩
    exact ⟨⟨⟨⟨⟨h1, h2⟩, (valid256_iff h1).2 h3⟩, (valid256_iff h2).2 h4⟩, h5⟩,
      (valid256_iff (Int.mul_nonneg h2 (Int.natCast_nonneg _))).2 h6⟩

theorem amountOk_iff {a : Int} : amountOk (some a) = true ↔ 0 ≤ a ∧ a < 2 ^ 256 := by
  unfold amountOk
  rw [Bool.and_eq_true, decide_eq_true_iff]
  constructor
  · intro ⟨h1, h2⟩; exact ⟨h1, (valid256_iff h1).1 h2⟩
  · intro ⟨h1, h2⟩; exact ⟨h1, (valid256_iff h1).2 h2⟩

/-- **C88 (what is admitted).** A message that is admitted has the hash of the transaction it stands for,
and this transaction is admissible, with amounts in bounds and none negative. -/
theorem basic_means (H : Tx → List Nat) (m : Msg) (h : basic H m = true) :
    m.hash = hashString (H (asTx m.data)) ∧ Admissible (asTx m.data) ∧ AmountsFit (asTx m.data) ∧
    0 ≤ (asTx m.data).value ∧
    (match (asTx m.data).kind with
      | .legacy p => 0 ≤ p
      | .access _ p _ => 0 ≤ p
      | .dynamic _ t c _ => 0 ≤ t ∧ 0 ≤ c) := by
  obtain ⟨⟨k, nonce, gas, to, amount, data, v, r, s⟩, hash, frm⟩ := m
  unfold basic validate at h
  simp only [Bool.and_eq_true, decide_eq_true_iff] at h
  obtain ⟨⟨⟨⟨_, hg⟩, hg'⟩, ⟨hk, ha⟩, _⟩, hh⟩ := h
  have ham : 0 ≤ amount.getD 0 ∧ amount.getD 0 < 2 ^ 256 := by
    cases amount with
    | none => exact ⟨by decide, by decide⟩
    | some a => exact amountOk_iff.1 ha
  have hg1 : 1 ≤ gas := by omega
  cases k with
  | legacy price =>
    dsimp only at hk
    rw [Bool.and_eq_true] at hk
    cases price with
    | none => exact absurd hk.1 (fun h => nomatch h)
    | some p =>
      obtain ⟨h1, h2, h3⟩ := priceOk_iff.1 hk.1
      exact ⟨hh, ⟨hg1, hg', h3, (deriveChain_isSome v).1 hk.2⟩, ⟨ham.2, h2⟩, ham.1, h1⟩
  | access chain price l =>
    dsimp only at hk
    rw [Bool.and_eq_true] at hk
    cases price with
    | none => exact absurd hk.1 (fun h => nomatch h)
    | some p =>
      obtain ⟨h1, h2, h3⟩ := priceOk_iff.1 hk.1
      exact ⟨hh, ⟨hg1, hg', h3⟩, ⟨ham.2, h2⟩, ham.1, h1⟩
  | dynamic chain tip cap l =>
    dsimp only at hk
    rw [Bool.and_eq_true] at hk
    cases tip with
    | none => exact absurd hk.1 (by cases cap <;> exact fun h => nomatch h)
    | some t =>
      cases cap with
      | none => exact absurd hk.1 (fun h => nomatch h)
      | some c =>
        obtain ⟨h1, h2, h3, h4, h5, h6⟩ := capsOk_iff.1 hk.1
        exact ⟨hh, ⟨hg1, hg', h5, h6⟩, ⟨ham.2, h3, h4⟩, ham.1, h1, h2⟩

/-- **C88 (what is admitted).** The message made from a transaction is admitted exactly if the transaction
is admissible. -/
theorem wrapped_admitted (up : List Nat → Nat → Bool) (H : Tx → List Nat) (tx : Tx) (hd : Decoded tx) (m : Msg)
    (h : fromTx up H tx = .ok m) : basic H m = true ↔ Admissible tx := by
  obtain ⟨ht, hh, hfr⟩ := wrap_roundtrip up H tx hd m h
  constructor
  · intro hb
    have := (basic_means H m hb).2.1
    rw [ht] at this
    exact this
  · intro ha
    have hok : AmountsFit tx ∧ ChainFits tx := (wrap_outcome up H tx hd).1.1 (by rw [h]; rfl)
    unfold basic
    rw [ht, hh, hfr, decide_eq_true (rfl : hashString (H tx) = hashString (H tx)), Bool.and_true]
    obtain ⟨k, nonce, gas, to, value, data, v, r, s⟩ := tx
    obtain ⟨hk, hto, hv, h1, h2, h3⟩ := hd
    obtain ⟨hg, hg', ha⟩ := ha
    obtain ⟨⟨hval, hfit⟩, hchain⟩ := hok
    unfold fromTx ofTx at h
    dsimp only at *
    rw [if_pos ((valid256_iff hv).2 hval)] at h
    have hto' : ∀ a, to = some a → isHexAddress (hexString (up a) a) = true :=
      fun a e => isHexAddress_text _ (hto a e)
    have hamt : amountOk (some value) = true := amountOk_iff.2 ⟨hv, hval⟩
    have tail : ∀ d : Data, d.amount = some value →
        d.to = toText up to →
        (amountOk d.amount && (decide (d.to = []) || isHexAddress d.to)) = true := by
      intro d e1 e2
      rw [e1, hamt, e2, Bool.true_and]
      cases to with
      | none => rfl
      | some a => unfold toText; dsimp only; rw [hto' a rfl, Bool.or_true]
    have gasOk : ((decide (([] : Str) = []) || isHexAddress []) && decide (gas ≠ 0) && decide (gas < 2 ^ 63)) = true := by
      rw [decide_eq_true (rfl : ([] : Str) = []), decide_eq_true (show gas ≠ 0 by omega), decide_eq_true hg']
      rfl
    have fin : ∀ d : Data, d.amount = some value →
        d.to = toText up to → d.gas = gas →
        (match d.kind with
          | .legacy price => priceOk price d.gas && (deriveChain d.v).isSome
          | .access chain price _ => priceOk price d.gas && chain.isSome
          | .dynamic chain tip cap _ => capsOk tip cap d.gas && chain.isSome) = true →
        ((decide (([] : Str) = []) || isHexAddress []) && decide (d.gas ≠ 0) && decide (d.gas < 2 ^ 63) && validate d) = true := by
      intro d e1 e2 e3 e4
      rw [e3, gasOk, Bool.true_and]
      unfold validate
      rw [Bool.and_assoc, Bool.and_eq_true]
      exact ⟨e4, tail d e1 e2⟩
    cases k with
    | legacy price =>
      dsimp only at *
      rw [show kindData up (.legacy price) = .ok (.legacy (some price)) by
        unfold kindData; dsimp only; rw [if_pos ((valid256_iff hk).2 hfit)]] at h
      dsimp only at h
      cases h
      refine fin _ rfl rfl rfl ?_
      show (priceOk (some price) gas && (deriveChain (bytes v)).isSome) = true
      rw [priceOk_iff.2 ⟨hk, hfit, ha.1⟩, Bool.true_and, deriveChain_isSome, ofBytes_bytes h1]
      exact ha.2
    | access chain price l =>
      dsimp only at *
      rw [show kindData up (.access chain price l) = .ok (.access (some chain) (some price) (textAccesses up l)) by
        unfold kindData; dsimp only; rw [if_pos ((valid256_iff hk.2.1).2 hfit), if_pos ((valid256_iff hk.1).2 hchain)]] at h
      dsimp only at h
      cases h
      refine fin _ rfl rfl rfl ?_
      show (priceOk (some price) gas && true) = true
      rw [priceOk_iff.2 ⟨hk.2.1, hfit, ha⟩]; rfl
    | dynamic chain tip cap l =>
      dsimp only at *
      rw [show kindData up (.dynamic chain tip cap l) =
          .ok (.dynamic (some chain) (some tip) (some cap) (textAccesses up l)) by
        unfold kindData
        dsimp only
        rw [if_pos (by rw [(valid256_iff hk.2.1).2 hfit.1, (valid256_iff hk.2.2.1).2 hfit.2]; rfl),
          if_pos ((valid256_iff hk.1).2 hchain)]] at h
      dsimp only at h
      cases h
      refine fin _ rfl rfl rfl ?_
      show (capsOk (some tip) (some cap) gas && true) = true
      rw [capsOk_iff.2 ⟨hk.2.1, hk.2.2.1, hfit.1, hfit.2, ha.1, ha.2⟩]; rfl

example : Admissible wallet ∧ Admissible creation :=
  ⟨⟨by decide, by decide, by decide, by decide⟩, ⟨by decide, by decide, by decide, .inr (.inr (by decide))⟩⟩

/-- **C88 (legacy chain).** A legacy transaction signed for a chain is one of that chain. -/
theorem legacy_chain (chain parity : Nat) (hp : parity ≤ 1) :
    deriveChain (bytes ((35 + 2 * chain + parity : Nat) : Int)) = some chain := by
  have hv := value_bytes ((35 + 2 * chain + parity : Nat) : Int)
  rw [Int.natAbs_natCast] at hv
  have hs := (deriveChain_isSome (bytes ((35 + 2 * chain + parity : Nat) : Int))).2
    (.inr (.inr (by rw [ofBytes_bytes (by omega)]; omega)))
  obtain ⟨c, hc⟩ := Option.isSome_iff_exists.1 hs
  have := deriveChain_eq _ c hc (by omega)
  rw [hc]
  congr 1
  omega

example : deriveChain (bytes 84035) = some 42000 := by decide +kernel

/-! ## Where it does not hold -/

/-- The message of `creation`. -/
def msg1 : Msg := ⟨⟨.legacy (some 1000), 0, 90000, [], some 0, [96, 0], [1, 72, 67], [5], [1, 0]⟩, hashString (toyHash creation), []⟩

/-- Another message. -/
def msg2 : Msg := { msg1 with data := { msg1.data with amount := none, r := [0, 0, 5] } }

/-- **C88 does not hold: one form.** The same transaction in other forms, all admitted: without an amount
instead of zero, with a zero in front of a value of the signature; and for a transaction with an address,
without capitals or without `0x`, and with any text in the access list that reads as the same address. -/
theorem forms_not_unique :
    fromTx caps toyHash creation = .ok msg1 ∧ basic toyHash msg1 = true ∧
    (msg2 ≠ msg1 ∧ basic toyHash msg2 = true ∧ asTx msg2.data = creation) ∧
    (∃ m m', fromTx caps toyHash wallet = .ok m ∧ m'.data.to = hexText (fun _ => false) 0 (List.replicate 19 17 ++ [250]) ∧
      m'.data ≠ m.data ∧ m'.hash = m.hash ∧ basic toyHash m' = true ∧ asTx m'.data = wallet) := by
  refine ⟨by decide +kernel, by decide +kernel, ⟨by decide +kernel, by decide +kernel, by decide +kernel⟩, ?_⟩
  refine ⟨⟨⟨.dynamic (some 42000) (some 7) (some 1000)
        [(hexString (caps []) (List.replicate 19 0 ++ [200]), [hashString (List.replicate 31 0 ++ [171])])], 5, 21000,
        hexString (caps []) (List.replicate 19 17 ++ [250]), some 300, [1, 2, 3], [1], [1, 17, 112], [1, 56, 128]⟩,
      hashString (toyHash wallet), []⟩,
    ⟨⟨.dynamic (some 42000) (some 7) (some 1000) [(str "c8, the oracle", [str "0xab"])], 5, 21000,
        hexText (fun _ => false) 0 (List.replicate 19 17 ++ [250]), some 300, [1, 2, 3], [1], [1, 17, 112], [1, 56, 128]⟩,
      hashString (toyHash wallet), []⟩, ?_⟩
  refine ⟨by decide +kernel, by decide +kernel, by decide +kernel, by decide +kernel, by decide +kernel, by decide +kernel⟩

/-- **Validation lets a negative chain number pass.** It is the check of the signature that refuses it. -/
theorem negative_chain_validates :
    ∃ m, basic toyHash m = true ∧ (asTx m.data).kind = .access (-5) 1000 [] :=
  ⟨⟨⟨.access (some (-5)) (some 1000) [], 0, 90000, [], some 0, [96, 0], [1], [5], [1]⟩,
    hashString (toyHash ⟨.access (-5) 1000 [], 0, 90000, none, 0, [96, 0], 1, 5, 1⟩), []⟩, by decide +kernel, by decide +kernel⟩

end Wrap
