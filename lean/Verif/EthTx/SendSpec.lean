import Verif.EthTx.Send
import Verif.EthTx.WrapSpec
/-!
# Specification: a transaction that is as it was asked for, and the next free nonce
-/

namespace Send

open Addr Wrap

/-- The accesses of a transaction. -/
def accessesOf : Kind → List (List Nat × List (List Nat))
  | .legacy _ => []
  | .access _ _ l => l
  | .dynamic _ _ _ l => l

/-- The chain a transaction names. -/
def chainOf : Kind → Option Int
  | .legacy _ => none
  | .access c _ _ => some c
  | .dynamic c _ _ _ => some c

/-- The gas price of a transaction without dynamic fees. -/
def priceOf : Kind → Option Int
  | .legacy p => some p
  | .access _ p _ => some p
  | .dynamic _ _ _ _ => none

/-- The tip and the fee cap of one with dynamic fees. -/
def capsOf : Kind → Option (Int × Int)
  | .dynamic _ t c _ => some (t, c)
  | _ => none

/-- Every field that was given is in the transaction, and nothing is there that was not asked for. -/
structure Asked (a : Args) (chain : Nat) (tx : Tx) : Prop where
  nonce : ∀ n, a.nonce = some n → tx.nonce = n
  gas : ∀ g, a.gas = some g → tx.gas = g
  to : tx.to = a.to
  value : tx.value = (a.value.getD 0 : Nat)
  data : ∀ d, a.data = some d → tx.data = d
  input : ∀ d, a.input = some d → tx.data = d
  empty : a.data = none → a.input = none → tx.data = []
  accesses : accessesOf tx.kind = a.accesses.getD []
  chain : ∀ c, chainOf tx.kind = some c → c = chain
  price : ∀ p : Nat, a.price = some p → priceOf tx.kind = some (p : Int)
  tip : ∀ t : Nat, a.tip = some t → ∃ c, capsOf tx.kind = some ((t : Int), c)
  cap : ∀ c : Nat, a.cap = some c → ∃ t, capsOf tx.kind = some (t, (c : Int))

/-- The arguments name proper addresses and keys. -/
def Proper (a : Args) : Prop := (∀ x, a.to = some x → IsAddr x) ∧ ∀ l, a.accesses = some l → IsAccesses l

/-- The nonce of a message, if it is of the account. -/
def nonceOf (who : Nat) : PMsg → Option Nat
  | .eth s n => if s = some who then some n else none
  | .other s n => if s = who then some n else none

/-- The nonces an account has used in the mempool. -/
def usedNonces (who : Nat) (pool : List (List PMsg)) : List Nat :=
  pool.flatMap fun t => t.filterMap (nonceOf who)

/-- The first nonce from `seq` on that is not used. -/
def NextFree (seq : Nat) (used : List Nat) (n : Nat) : Prop :=
  seq ≤ n ∧ n ∉ used ∧ ∀ k, seq ≤ k → k < n → k ∈ used

/-- All messages of a transaction are of Ethereum, or none is and none is signed by the account. -/
def Plain (who : Nat) (t : List PMsg) : Prop :=
  (∀ m ∈ t, ∃ s n, m = .eth s n) ∨ (∀ m ∈ t, ∃ s n, m = .other s n ∧ s ≠ who)

end Send
