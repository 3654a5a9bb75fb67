import Verif.EVM.BlockHash
/-!
# What hashes of earlier blocks should be
-/

namespace BlockHash

/-- The block of height `k` is one of the last 256 before the current one. -/
def Recent (s : State) (k : Nat) : Prop := k < s.cur ∧ s.cur ≤ k + 256

/-- The header is one that CometBFT makes: its checks pass, and it has the hash of its validators. -/
def Real (e : Env) (h : Header) : Prop := valid e h = true ∧ h.validators ≠ []

/-- The full property: BLOCKHASH gives the hash of each of the last 256 blocks. -/
def GivesHashes (e : Env) (s : State) : Prop :=
  ∀ k h, Recent s k → s.blocks k = some h → opcode e s k = e.hash h

end BlockHash
