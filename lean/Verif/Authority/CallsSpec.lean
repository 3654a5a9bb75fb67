import Verif.Authority.Calls
/-!
# What one would expect of calls made in somebody's name

Stated with the methods and the arguments of the calls and with the stored grants only.
-/
namespace Authority
variable {W : Type}

/-- The account a message acts for: the one whose signature a Cosmos transaction with it would need. -/
def Msg.actsFor : Msg → Addr
  | .createValidator v _ _ => v
  | .editValidator v _ => v
  | .delegate d _ _ => d
  | .undelegate d _ _ => d
  | .cancelUnbonding d _ _ _ => d
  | .unjail v => v
  | .claimRewards d _ => d
  | .setWithdrawAddress d _ => d
  | .withdrawReward d _ => d
  | .withdrawCommission v => v
  | .fundCommunityPool d _ => d
  | .vote a _ _ => a
  | .submitProposal a _ _ => a
  | .sendToChain a _ _ _ _ => a
  | .cancelSendToChain a _ _ => a
  | .requestData a _ _ _ => a
  | .setOrchestrator a _ _ => a
  | .manageBridge a _ => a
  | .cron a _ _ => a
  | .storeLogo a _ => a
  | .createToken a _ _ => a

/-- A way to say that something belonging to an account was taken or decided between two states: `touched w w' a`. Messages touch the
account they act for only, nothing is touched when nothing happens, and what is touched over two steps is touched in one of them. -/
structure Ownership (c : Chain W) where
  touched : W → W → Addr → Prop
  byMessage : ∀ w m w' a, c.exec w m = some w' → touched w w' a → a = m.actsFor
  still : ∀ w a, ¬ touched w w a
  either : ∀ w₁ w₂ w₃ a, touched w₁ w₃ a → touched w₁ w₂ a ∨ touched w₂ w₃ a

/-- The stake a method moves: kind, delegator, validator, coin. -/
def moves (c : Chain W) : Method → Option (Kind × Addr × Addr × Coin)
  | .delegate d v coin => some (.delegate, d, v, coin)
  | .undelegate d v coin => some (.undelegate, d, v, coin)
  | .cancelUnbonding d v n _ => some (.cancel, d, v, ⟨c.bond, n⟩)
  | _ => none

/-- The message of such a method. -/
def stakeMsg (c : Chain W) : Method → Option Msg
  | .delegate d v coin => some (.delegate d v coin)
  | .undelegate d v coin => some (.undelegate d v coin)
  | .cancelUnbonding d v n h => some (.cancelUnbonding d v ⟨c.bond, n⟩ h)
  | _ => none

/-- A stored grant permits moving a coin to or from a validator now. It still counts at its very time of expiry. -/
def Permits (now : Nat) (g : Grant) (v : Addr) (coin : Coin) : Prop :=
  (∀ e, g.expiry = some e → now ≤ e) ∧
  ∃ limit allow deny, g.auth = .stake limit allow deny ∧ v ∉ deny ∧ (allow ≠ [] → v ∈ allow) ∧
    ∀ l, limit = some l → l.denom = coin.denom ∧ coin.amount ≤ l.amount

/-- What becomes of a grant that was used for a coin: a limit is lowered by the amount, and the grant goes when nothing is left. -/
def Used (before : Grant) (coin : Coin) (after : Option Grant) : Prop :=
  match before.auth with
  | .stake (some l) allow deny =>
    (l.amount = coin.amount → after = none) ∧
    (coin.amount < l.amount → after = some ⟨.stake (some ⟨l.denom, l.amount - coin.amount⟩) allow deny, before.expiry⟩)
  | _ => after = some before

/-- The staking grants a method gives, changes or takes back: grantee and kinds. -/
def manages : Method → Option (Addr × List Kind)
  | .approve g _ ks => some (g, ks)
  | .revoke g ks => some (g, ks)
  | .increaseAllowance g _ ks => some (g, ks)
  | .decreaseAllowance g _ ks => some (g, ks)
  | _ => none

/-- What becomes of the grant of a kind that a method names: `approve` replaces it by one for the validators that are not jailed, of the amount
or unlimited, lasting for the set time, and removes it for zero; `revoke` removes it; raising and lowering change the amount of a
limit and leave unlimited grants alone. -/
def Managed (c : Chain W) (s : St W) (m : Method) (before after : Option Grant) : Prop :=
  match m with
  | .approve _ n _ => after = if n = some 0 then none else some ⟨.stake (n.map (Coin.mk c.bond)) (c.active s.world) [], some (s.now + c.lasts)⟩
  | .revoke _ _ => after = none
  | .increaseAllowance _ n _ => ∃ limit allow deny e, before = some ⟨.stake limit allow deny, e⟩ ∧
      after = some ⟨.stake (limit.map (fun l => ⟨l.denom, l.amount + n.getD 0⟩)) allow deny, e⟩
  | .decreaseAllowance _ n _ => ∃ limit allow deny e, before = some ⟨.stake limit allow deny, e⟩ ∧
      (∀ l, limit = some l → n.getD 0 ≤ l.amount) ∧
      after = some ⟨.stake (limit.map (fun l => ⟨l.denom, l.amount - n.getD 0⟩)) allow deny, e⟩
  | _ => after = before

/-- How much a grantee may still move under a stored grant. -/
def room (s : St W) (a b : Addr) (k : Kind) : Nat :=
  match KV.get s.grants (a, b, k) with
  | some ⟨.stake (some l) _ _, _⟩ => l.amount
  | _ => 0

/-- An unlimited grant. -/
def Unlimited (g : Grant) : Prop := ∃ allow deny, g.auth = .stake none allow deny

/-- No grant stored for these three is unlimited. -/
def Limited (s : St W) (a b : Addr) (k : Kind) : Prop := ∀ g, KV.get s.grants (a, b, k) = some g → ¬ Unlimited g

/-- An operation that does not give `b` an unlimited grant of `a`. -/
def gives_limit (a b : Addr) (k : Kind) : Op W → Prop
  | .call o _ (.approve g none ks) => ¬ (o = a ∧ g = b ∧ k ∈ ks)
  | .grant a' b' k' g => a' = a ∧ b' = b ∧ k' = k → ¬ Unlimited g
  | _ => True

/-- What one operation moved of the stake or the coins of `a` on a call by `b ≠ a`. -/
def moved (c : Chain W) (s : St W) (a b : Addr) (k : Kind) : Op W → Nat
  | .call o b' m => match moves c m with
    | some (k', d, _, coin) => if (call c s o b' m).isSome ∧ b' = b ∧ k' = k ∧ d = a then coin.amount else 0
    | none => 0
  | _ => 0

/-- What one operation allowed `b` to move for `a`: approvals and increases in transactions that `a` signed, and grants that `a` signed. -/
def allowed (c : Chain W) (s : St W) (a b : Addr) (k : Kind) : Op W → Nat
  | .call o b' m => match m with
    | .approve g (some n) ks => if (call c s o b' m).isSome ∧ o = a ∧ g = b then n * ks.count k else 0
    | .increaseAllowance g (some n) ks => if (call c s o b' m).isSome ∧ o = a ∧ g = b then n * ks.count k else 0
    | _ => 0
  | .grant a' b' k' ⟨.stake (some l) _ _, _⟩ => if a' = a ∧ b' = b ∧ k' = k then l.amount else 0
  | _ => 0

/-- Sum of a quantity over a history. -/
def total (f : St W → Op W → Nat) (c : Chain W) (s : St W) : List (Op W) → Nat
  | [] => 0
  | op :: ops => f s op + total f c (next c s op) ops

/-- An operation `a` has no part in: another's call, not of `unjail` for `a`; another's grant; time. -/
def Foreign (a : Addr) : Op W → Prop
  | .call o b m => o ≠ a ∧ b ≠ a ∧ m ≠ .unjail a
  | .grant a' _ _ _ => a' ≠ a
  | .revoke a' _ _ => a' ≠ a
  | .other _ => False
  | .tick _ => True

end Authority
