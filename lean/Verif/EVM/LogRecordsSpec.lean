import Verif.EVM.LogRecords
/-!
# What logs are
-/

namespace LogRecords

/-- `n` bytes. -/
def Bytes (n : Nat) (b : List Nat) : Prop := b.length = n ∧ ∀ x ∈ b, x < 256

/-- A log of the virtual machine: addresses and hashes have their sizes. -/
structure WellFormed (l : EthLog) : Prop where
  address : Bytes 20 l.address
  topics : ∀ t ∈ l.topics, Bytes 32 t
  txHash : Bytes 32 l.txHash
  blockHash : Bytes 32 l.blockHash

/-- Not all bytes are zero. -/
def NonZero (b : List Nat) : Prop := ∃ x ∈ b, x ≠ 0

end LogRecords
