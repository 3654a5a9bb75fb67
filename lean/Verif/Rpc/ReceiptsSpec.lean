import Verif.Rpc.Receipts
import Verif.Rpc.IndexSpec
/-!
# Specification: what a receipt should say
-/

namespace EthIndex

/-- The gas of the transactions before one of a block. -/
def gasBefore (ss : List Step) (tx : Nat) : Nat := ((ss.take tx).map (·.gas)).sum

/-- The receipt of the `k`-th Ethereum transaction of a block: success exactly when it was executed
without an error, the gas of all transactions of the block up to it, its logs, the gas it paid for. -/
def ideal (height k : Nat) (ss : List Step) (p : Place) : Receipt :=
  ⟨p.m.hash, !p.fails, gasBefore ss p.tx + p.before + p.paid, if p.ran then p.m.logs else [], p.paid, height, k⟩

/-- All Ethereum messages of a block, the refused ones as well. -/
def allHashes (ss : List Step) : List Nat := ss.flatMap fun s => if s.tx.decodes then s.tx.eths.map (·.hash) else []

/-- The gas in the result of a transaction is at least what its messages pay for. -/
def Covers (s : Step) : Prop :=
  match s.fate with
  | .ok => (s.tx.eths.map (·.used)).sum ≤ s.gas
  | .spent => (s.tx.eths.map (·.gas)).sum ≤ s.gas
  | .refused _ => True

instance (s : Step) : Decidable (Covers s) := by unfold Covers; cases s.fate <;> infer_instance

end EthIndex
