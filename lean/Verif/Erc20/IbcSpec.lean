import Verif.Erc20.Ibc
/-!
# IBC transfers of tokens: what is owed and what is held
-/
namespace Erc20.Ibc

/-- What someone has of the token here, in coins and in tokens. -/
def holding (s : St) (u : Nat) : Nat := s.w.coins u + s.w.tok.bal u

/-- What has to be paid from the account of channel `c` should packet `p` fail. -/
def dueOut (c : Nat) : Option Out → Nat
  | none => 0
  | some p => if p.chan = c ∧ (p.at_ = .going ∨ p.at_ = .refused) then p.amount else 0

/-- What has to be paid from the account of channel `c` for packet `p`, now or after its vouchers were sent again. -/
def dueIn (c : Nat) : Option In → Nat
  | none => 0
  | some p => if p.chan = c ∧ (p.at_ = .coming ∨ p.at_ = .refused) then p.amount else 0

/-- `f 0 + … + f (n - 1)`. -/
def sumTo (f : Nat → Nat) : Nat → Nat
  | 0 => 0
  | n + 1 => sumTo f n + f n

/-- All that the account of channel `c` stands for: vouchers at the other end, transfers on their way out, and on their way back. -/
def owed (s : St) (c : Nat) : Nat :=
  s.there c + sumTo (fun i => dueOut c (s.out i)) s.nOut + sumTo (fun i => dueIn c (s.inn i)) s.nIn

/-- Nobody at the other end names the account of a channel as recipient. -/
def Ordinary (ops : List Op) : Prop := ∀ c r n self, Op.sendBack c r n self ∈ ops → ∀ d, r ≠ esc d

end Erc20.Ibc
