import Verif.EthTx.Wrap
/-!
# Specification: what can be decoded from the bytes of an Ethereum transaction, and what of it is admitted
-/

namespace Wrap

/-- Twenty bytes. -/
def IsAddr (a : List Nat) : Prop := a.length = 20 ∧ ∀ b ∈ a, b < 256

/-- Thirty-two bytes. -/
def IsHash (h : List Nat) : Prop := h.length = 32 ∧ ∀ b ∈ h, b < 256

instance (a : List Nat) : Decidable (IsAddr a) := by unfold IsAddr; infer_instance
instance (a : List Nat) : Decidable (IsHash a) := by unfold IsHash; infer_instance

/-- An access list with proper addresses and keys. -/
def IsAccesses (l : List (List Nat × List (List Nat))) : Prop := ∀ t ∈ l, IsAddr t.1 ∧ ∀ k ∈ t.2, IsHash k

instance (l : List (List Nat × List (List Nat))) : Decidable (IsAccesses l) := by unfold IsAccesses; infer_instance

/-- A transaction as bytes decode to: no number is negative, addresses and keys have their lengths. -/
def Decoded (tx : Tx) : Prop :=
  (match tx.kind with
    | .legacy price => 0 ≤ price
    | .access chain price l => 0 ≤ chain ∧ 0 ≤ price ∧ IsAccesses l
    | .dynamic chain tip cap l => 0 ≤ chain ∧ 0 ≤ tip ∧ 0 ≤ cap ∧ IsAccesses l) ∧
  (∀ a, tx.to = some a → IsAddr a) ∧ 0 ≤ tx.value ∧ 0 ≤ tx.v ∧ 0 ≤ tx.r ∧ 0 ≤ tx.s

/-- No amount has more than 256 bits. -/
def AmountsFit (tx : Tx) : Prop :=
  tx.value < 2 ^ 256 ∧
  (match tx.kind with
    | .legacy price => price < 2 ^ 256
    | .access _ price _ => price < 2 ^ 256
    | .dynamic _ tip cap _ => tip < 2 ^ 256 ∧ cap < 2 ^ 256)

/-- Nor has the chain number. -/
def ChainFits (tx : Tx) : Prop :=
  match tx.kind with
  | .legacy _ => True
  | .access chain _ _ => chain < 2 ^ 256
  | .dynamic chain _ _ _ => chain < 2 ^ 256

/-- What is admitted: a gas limit from one to 2^63 - 1, a fee of at most 256 bits, a tip no greater than
the fee cap, and for a legacy transaction a signature value that tells a chain (27, 28, or 35 and more). -/
def Admissible (tx : Tx) : Prop :=
  1 ≤ tx.gas ∧ tx.gas < 2 ^ 63 ∧
  (match tx.kind with
    | .legacy price => price * tx.gas < 2 ^ 256 ∧ (tx.v = 27 ∨ tx.v = 28 ∨ 35 ≤ tx.v)
    | .access _ price _ => price * tx.gas < 2 ^ 256
    | .dynamic _ tip cap _ => tip ≤ cap ∧ cap * tx.gas < 2 ^ 256)

end Wrap
