import Verif.EVM.Gate
/-
What is expected of access control and built-in contracts, in terms of addresses: an entry of a list stands
for the address it reads as, however it is written.
-/
namespace Gate.Spec

/-- The value of a digit, in small or capital letters. -/
def digit (c : Nat) (n : Fin 16) : Prop :=
  (c = 48 + n.val ∧ n.val < 10) ∨ (c = 97 + (n.val - 10) ∧ 10 ≤ n.val) ∨ (c = 65 + (n.val - 10) ∧ 10 ≤ n.val)

/-- The text `t` reads as the address `a`: its forty digits, with or without "0x" or "0X" before them. -/
def ReadsAs (t : List Nat) (a : List (Fin 16)) : Prop :=
  a.length = 40 ∧ ∃ ds : List Nat, (t = ds ∨ t = 48 :: 120 :: ds ∨ t = 48 :: 88 :: ds) ∧
    ds.length = 40 ∧ ∀ (i : Nat) c n, ds[i]? = some c → a[i]? = some n → digit c n

/-- The address `a` is on the list. -/
def Listed (l : List (List Nat)) (a : List (Fin 16)) : Prop := ∃ t ∈ l, ReadsAs t a

/-- What a policy promises: permissionless — everybody but those listed, whether they sign or call;
permissioned — only where the signer or the caller is listed; restricted — nobody. -/
def Allows (p : Policy) (signer caller : List (Fin 16)) : Prop :=
  (p.access = 0 ∧ ¬Listed p.list signer ∧ ¬Listed p.list caller) ∨
  (p.access = 2 ∧ (Listed p.list signer ∨ Listed p.list caller))

/-- Every entry of the list is written as the chain writes addresses. -/
def Usual (caps : Addr → Nat → Bool) (l : List (List Nat)) : Prop :=
  ∀ t ∈ l, ∀ a, ReadsAs t a → t = text caps a

/-- The built-in contract the chain promises at an address: one of the nine standard ones, one of its own
contracts if the address is on the list of active ones, or that of a token. -/
def Answers {B : Type} (e : Env B) (a : List (Fin 16)) (b : Option B) : Prop :=
  (((∃ n : Fin 16, 1 ≤ n.val ∧ n.val ≤ 9 ∧ a = List.replicate 39 0 ++ [n]) ∨ Listed e.params.active a) ∧
    ∃ c, e.own a = some c ∧ b = some c) ∨
  (¬(∃ n : Fin 16, 1 ≤ n.val ∧ n.val ≤ 9 ∧ a = List.replicate 39 0 ++ [n]) ∧ ¬Listed e.params.active a ∧
    ((e.token a = none ∧ b = none) ∨ ∃ c, e.token a = some (some c) ∧ b = some c))

end Gate.Spec
