import Verif.Hyperion.Orch
/-!
# Specification for registration of orchestrators
-/
namespace Hyperion.Orch

/-- Who signs a message. -/
def signer : Op → Option Nat
  | .register v _ _ => some v
  | .registerFee v _ _ _ _ => some v
  | .updateFee v _ _ _ => some v
  | .deleteFee v => some v
  | .unset v _ => some v
  | .setVal _ _ => none
  | .setAllowed _ => none

/-- Orchestrator `o` acts for validator `v`. -/
def Acts (r : Reg) (o v : Nat) : Prop := KV.get r.orch o = some v

/-- Validator `v` signs with Ethereum address `e`. -/
def Signs (r : Reg) (v e : Nat) : Prop := KV.get r.eth v = some e

/-- Signatures of Ethereum address `e` are held against validator `v`. -/
def Answers (r : Reg) (e v : Nat) : Prop := KV.get r.byEth e = some v

/-- Validator `v` asks for fee `f`. -/
def Asks (r : Reg) (v f : Nat) : Prop := KV.get r.fees v = some f

/-- The registry is as it should be: exactly one orchestrator acts for each validator with an address, none for others, and a validator answers for
the address it signs with, which nobody else does. -/
structure Sound (r : Reg) : Prop where
  acts_signs : ∀ {o v}, Acts r o v → ∃ e, Signs r v e
  signs_acts : ∀ {v e}, Signs r v e → ∃ o, Acts r o v
  one : ∀ {o o' v}, Acts r o v → Acts r o' v → o = o'
  answers : ∀ {v e}, Signs r v e ↔ Answers r e v

/-- Nobody registers an Ethereum address somebody has, and only validators that are their own orchestrators leave, naming their address. -/
def Careful (r : Reg) : List Op → Prop
  | [] => True
  | op :: ops => (match op with
      | .register _ _ e => ∀ w, ¬ Signs r w e
      | .registerFee v _ _ _ _ => ∀ w, ¬ Signs r w v
      | .unset v e => Acts r v v ∧ Signs r v e
      | _ => True) ∧ Careful (step r op) ops

end Hyperion.Orch
