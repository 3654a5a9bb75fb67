import Verif.Erc20.Token
/-!
# What an ERC-20 token is

EIP-20 and the two usual additions (`increaseAllowance`, `decreaseAllowance`), for one token, in terms of what a caller can ask it.
-/
namespace Erc20Token

/-- What a caller sees of a token: `balanceOf` and `allowance`. -/
structure Face where
  balance : Addr → Nat
  allowance : Addr → Addr → Nat

/-- The token of coin `d` as seen by a caller. -/
def face (s : St) (d : Denom) : Face := ⟨balanceOf s d, allowance s d⟩

/-- `n` units go from `src` to `dst`. -/
def Face.move (f : Face) (src dst : Addr) (n : Nat) : Face :=
  { f with balance := fun a =>
      if src = dst then f.balance a
      else if a = src then f.balance a - n
      else if a = dst then f.balance a + n
      else f.balance a }

/-- The allowance of `spender` over the tokens of `owner` becomes `n`. -/
def Face.allow (f : Face) (owner spender : Addr) (n : Nat) : Face :=
  { f with allowance := fun o p => if o = owner ∧ p = spender then n else f.allowance o p }

/-- What a successful call must do. -/
def Face.after (f : Face) (caller : Addr) : Method → Face
  | .transfer dst n => f.move caller dst n
  | .transferFrom src dst n =>
    if caller = src then f.move src dst n else (f.move src dst n).allow src caller (f.allowance src caller - n)
  | .approve spender n => f.allow caller spender n
  | .increase spender n => f.allow caller spender (f.allowance caller spender + n)
  | .decrease spender n => f.allow caller spender (f.allowance caller spender - n)

/-- When a call may succeed. -/
def Face.permits (f : Face) (caller : Addr) : Method → Prop
  | .transfer _ n => n ≤ f.balance caller
  | .transferFrom src _ n => n ≤ f.balance src ∧ (caller = src ∨ n ≤ f.allowance src caller)
  | .approve _ _ => True
  | .increase spender n => f.allowance caller spender + n ≤ maxUint
  | .decrease spender n => n ≤ f.allowance caller spender

/-- The whole promise of EIP-20 for a call: it goes through exactly when permitted, and then does what it must. -/
def IsErc20 (cfg : Cfg) (s : St) (d : Denom) : Prop :=
  ∀ caller m, m.amount ≤ maxUint →
    ((face s d).permits caller m ↔ (call cfg s d caller m).isSome) ∧
    ∀ s', call cfg s d caller m = some s' → face s' d = (face s d).after caller m

/-- Balances recomputed from `Transfer` logs of the token at `token`. -/
def replay (token : Addr) (b : Addr → Nat) : List Event → (Addr → Nat)
  | [] => b
  | .transfer t src dst n :: es =>
    if t = token then replay token (Face.move ⟨b, fun _ _ => 0⟩ src dst n).balance es else replay token b es
  | .approval .. :: es => replay token b es

/-- The last `Approval` log of a token for an owner and a spender. -/
def lastApproval (token owner spender : Addr) (es : List Event) : Option Nat :=
  es.foldl (fun r e => match e with
    | .approval t o p n => if t = token ∧ o = owner ∧ p = spender then some n else r
    | .transfer .. => r) none

/-- The promise of the `Approval` log: an allowance that a call has changed is told by the last log for its owner and spender. -/
def ApprovalsTold (cfg : Cfg) (s : St) (d : Denom) : Prop :=
  ∀ caller m s', call cfg s d caller m = some s' → ∀ o p, o ≠ p → allowance s' d o p ≠ allowance s d o p →
    lastApproval (cfg.tokenOf d) o p s'.log = some (allowance s' d o p)

/-- How much of the coins `d` of `owner` the account `spender` moves by an event that succeeds. -/
def spentBy (d : Denom) (owner spender : Addr) : Op → Nat
  | .call d' c (.transferFrom src _ n) => if d' = d ∧ c = spender ∧ src = owner then n else 0
  | .exec src c _ d' n => if d' = d ∧ c = spender ∧ src = owner then n else 0
  | _ => 0

/-- How much of the coins `d` of `owner` an event that succeeds grants to `spender`. -/
def grantedBy (d : Denom) (owner spender : Addr) : Op → Nat
  | .call d' c (.approve p n) => if d' = d ∧ c = owner ∧ p = spender then n else 0
  | .call d' c (.increase p n) => if d' = d ∧ c = owner ∧ p = spender then n else 0
  | .grant src p ⟨.send limit _, _⟩ => if src = owner ∧ p = spender then amountOf limit d else 0
  | _ => 0

/-- The sum of an amount over the events of a history that succeed. -/
def total (cfg : Cfg) (f : Op → Nat) : St → List Op → Nat
  | _, [] => 0
  | s, o :: os => (if (step cfg s o).isSome then f o else 0) + total cfg f (next cfg s o) os

/-- `owner` never gave `spender` an unlimited (generic) authorisation: none is stored, none is granted in the history. -/
def NoGeneric (s : St) (owner spender : Addr) (os : List Op) : Prop :=
  (∀ g, KV.get s.grants (owner, spender) = some g → g.auth ≠ .generic) ∧ ∀ e, Op.grant owner spender ⟨.generic, e⟩ ∉ os

/-- Who acts in an event. Modules mint and burn; time passes by itself. -/
def actor : Op → Option Addr
  | .call _ caller _ => some caller
  | .send src _ _ _ => some src
  | .grant owner _ _ => some owner
  | .revoke owner _ => some owner
  | .exec _ spender _ _ _ => some spender
  | .mint .. => none
  | .burn .. => none
  | .tick _ => none
  | .purge .. => none

/-- Events after which the `Transfer` logs still tell the balances: calls of tokens, and whatever does not move coins. -/
def tokenOnly : Op → Bool
  | .send .. => false
  | .exec .. => false
  | .mint .. => false
  | .burn .. => false
  | _ => true

/-- The coins of a denomination held by the accounts in a list. -/
def held (s : St) (d : Denom) (L : List Addr) : Nat := (L.map (fun a => balanceOf s d a)).sum

/-- The list has every account that holds the coin, each once. -/
def Holders (s : St) (d : Denom) (L : List Addr) : Prop := L.Nodup ∧ ∀ a, a ∉ L → balanceOf s d a = 0

/-- Nothing but the amount stands in the way of a call: the coin may be sent, the recipient may receive, nothing is locked, and between
owner and spender there is at most an ordinary grant that is not just expiring. -/
def Unhindered (cfg : Cfg) (s : St) (d : Denom) (caller : Addr) : Method → Prop
  | .transfer dst _ => cfg.enabled d = true ∧ cfg.blocked dst = false ∧ cfg.locked caller d = 0
  | .transferFrom src dst _ => cfg.enabled d = true ∧ cfg.blocked dst = false ∧ cfg.locked src d = 0 ∧
      ∀ g, live s src caller = some g → ∃ L, g.auth = .send L []
  | .approve p n => p ≠ caller ∧ (∀ g, live s caller p = some g → (∃ L, g.auth = .send L []) ∧ g.expiry ≠ some s.now) ∧
      (n = 0 → live s caller p = none ∨ 0 < allowance s d caller p)
  | .increase p _ => p ≠ caller ∧ ∀ g, live s caller p = some g → (∃ L, g.auth = .send L []) ∧ g.expiry ≠ some s.now
  | .decrease p _ => p ≠ caller ∧ ∀ g, live s caller p = some g → (∃ L, g.auth = .send L []) ∧ g.expiry ≠ some s.now

/-- `approve` may be called with zero, the others not. -/
def Method.mayBeZero : Method → Bool
  | .approve .. => true
  | _ => false

end Erc20Token
