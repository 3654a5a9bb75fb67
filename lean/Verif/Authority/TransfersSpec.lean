import Verif.Authority.Transfers
/-!
# Allowances for IBC transfers: what is claimed

What a grant allows, what an owner consented to, and what was sent, in terms of the stored grants, the calls made and the packets sent.
-/
namespace Ics
variable {W : Type}

/-- No limit. -/
def unlimited : Nat := 115792089237316195423570985008687907853269984665640564039457584007913129639935

/-- How much of a coin an authorisation allows over a channel. -/
def Auth.allows : Auth → Nat → Nat → Nat → Nat
  | .generic, _, _, _ => unlimited
  | .transfer as, p, c, d => match as.find? (fun a => decide (a.port = p ∧ a.chan = c)) with
    | none => 0
    | some a => match a.limit.find? (fun e => decide (e.1 = d)) with
      | none => 0
      | some e => e.2

/-- How much of the coins called `d` the account `b` may still send for `a` over a channel, by the stored grant. -/
def left (s : St W) (a b : Addr) (p c d : Nat) : Nat :=
  match KV.get s.grants (a, b) with
  | none => 0
  | some g => g.auth.allows p c d

/-- How much of it `b` has sent in transactions of `a`. -/
def sentFor (a b : Addr) (p c d : Nat) : List Sent → Nat
  | [] => 0
  | x :: xs => (if x.signer = a ∧ x.caller = b ∧ x.port = p ∧ x.chan = c ∧ x.name = d then x.amount else 0) + sentFor a b p c d xs

/-- How much a step adds to what `a` consented to. -/
def consent (a b : Addr) (p c d : Nat) : Op W → Nat
  | .call o _ (.approve g as) => if o = a ∧ g = b then (Auth.transfer as).allows p c d else 0
  | .call o _ (.increase g p' c' d' n) => if o = a ∧ g = b ∧ p' = p ∧ c' = c ∧ d' = d then n else 0
  | .grant o g x _ => if o = a ∧ g = b then x.allows p c d else 0
  | _ => 0

/-- How much a step takes back. -/
def takenBack (a b : Addr) (p c d : Nat) : Op W → Nat
  | .call o _ (.decrease g p' c' d' n) => if o = a ∧ g = b ∧ p' = p ∧ c' = c ∧ d' = d then n else 0
  | _ => 0

/-- Sum over a history. -/
def total (f : Op W → Nat) : List (Op W) → Nat
  | [] => 0
  | op :: ops => f op + total f ops

/-- A step about the grant that `a` gave to `b`. -/
def about (a b : Addr) : Op W → Prop
  | .call o _ (.approve g _) => o = a ∧ g = b
  | .call o _ (.revoke g) => o = a ∧ g = b
  | .call o _ (.increase g _ _ _ _) => o = a ∧ g = b
  | .call o _ (.decrease g _ _ _ _) => o = a ∧ g = b
  | .enter o g _ => o = a ∧ g = b
  | .grant o g _ _ => o = a ∧ g = b
  | .drop o g => o = a ∧ g = b
  | _ => False

/-- A step by which `a` gives `b` a grant. -/
def gives (a b : Addr) : Op W → Prop
  | .call o _ (.approve g _) => o = a ∧ g = b
  | .grant o g _ _ => o = a ∧ g = b
  | _ => False

/-- A transfer that `b` makes under the grant of `a` through the contract is under way. -/
def Busy (s : St W) (a b : Addr) : Prop := ∃ f ∈ s.frames, f.signer = a ∧ f.caller = b ∧ f.paid = false

/-- While such a transfer is under way, nothing else is done about the grant. -/
def Undisturbed (c : Chain W) (a b : Addr) (s : St W) : List (Op W) → Prop
  | [] => True
  | op :: ops => (Busy s a b → ¬ about a b op) ∧ ∀ s', step c s op = some s' → Undisturbed c a b s' ops

/-- What holds of every stored authorisation: no channel appears twice, no coin twice in a limit, and limits are above zero and at most 2^256 - 1. -/
def WellFormed (as : List Alloc) : Prop :=
  (as.map (·.chan)).Nodup ∧ ∀ a ∈ as, (a.limit.map (·.1)).Nodup ∧ ∀ e ∈ a.limit, 0 < e.2 ∧ e.2 ≤ unlimited

/-- All authorisations stored, or about to be stored by a transfer under way, are well formed; a transfer by the signer themselves stores none. -/
def Sound (s : St W) : Prop :=
  (∀ k g as, KV.get s.grants k = some g → g.auth = .transfer as → WellFormed as) ∧
  ∀ f ∈ s.frames, ∀ as, f.after = .update as → WellFormed as

/-- An allocation that covers a message, apart from the amount. -/
structure Covers (a : Alloc) (m : Msg) : Prop where
  receiver : a.receivers = [] ∨ m.receiver ∈ a.receivers
  memo : (a.memos = [] ∧ m.memo = 0) ∨ a.memos = [1] ∨ (a.memos ≠ [] ∧ m.memo ∈ a.memos)

/-- Not expired. -/
def Grant.Valid (g : Grant) (now : Nat) : Prop := ∀ e, g.expiry = some e → now ≤ e

end Ics
