import Verif.Erc20.Create
/-!
# Creating tokens and logos: specification
-/
namespace Create

/-- A letter of the English alphabet. -/
def IsLetter (c : UInt8) : Prop := (65 ≤ c.toNat ∧ c.toNat ≤ 90) ∨ (97 ≤ c.toNat ∧ c.toNat ≤ 122)

/-- A letter, a digit or one of `/ : . _ -`. -/
def IsDenomChar (c : UInt8) : Prop := IsLetter c ∨ (48 ≤ c.toNat ∧ c.toNat ≤ 57) ∨ c.toNat ∈ [47, 58, 46, 95, 45]

/-- A text that can name a coin of a new token: 3 to 32 characters, a letter first. -/
def IsTicker (t : Str) : Prop :=
  3 ≤ t.length ∧ t.length ≤ 32 ∧ (∀ c ∈ t, IsDenomChar c) ∧ ∀ c, t.head? = some c → IsLetter c

/-- A logo the chain takes when pictures may have `max` bytes. -/
def LogoFits (e : Env) (max : Nat) (data : Str) : Prop := 3 * data.length ≤ 4 * max ∧ e.png data = true

/-- The creations that are accepted. -/
structure Acceptable (e : Env) (s : State) (r : Req) : Prop where
  name : e.blank r.name = false ∧ 32 ∉ r.name ∧ r.name.length ≤ 128
  symbol : IsTicker r.symbol
  denom : IsTicker r.denom
  differ : r.symbol ≠ r.denom
  supply : 0 < r.supply
  decimals : 1 ≤ r.decimals ∧ r.decimals ≤ 18
  origin : r.origin ≠ 0
  new : KV.get s.metas r.denom = none
  logo : r.logo ≠ [] → LogoFits e s.maxLogo r.logo
  evm : r.deploys = true ∧ r.mints = true
  range : s.supply r.denom + r.supply < 2 ^ 256

/-- Blank texts contain no characters of tickers, and the empty text is blank. -/
structure Sane (e : Env) : Prop where
  blank : ∀ t, e.blank t = true → ∀ c ∈ t, ¬ IsDenomChar c

/-- All accounts together have at most `s`. -/
def Covers (c : Nat → Nat) (s : Nat) : Prop := ∀ l : List Nat, l.Nodup → (l.map c).sum ≤ s

/-- A state in which the registry of the tokens created is as it should be: what is registered, and every contract, has an address of a nonce already used, the
two maps are inverse to each other, and each registered denomination is described with its contract. -/
structure Books (e : Env) (s : State) : Prop where
  used : ∀ a d, s.ercMap a = some d → ∃ k, k < s.seq ∧ a = e.addrOf k
  there : ∀ d a, s.denomMap d = some a → s.ercMap a = some d
  back : ∀ d a, s.ercMap a = some d → s.denomMap d = some a
  described : ∀ d a, s.denomMap d = some a → ∃ m, KV.get s.metas d = some m ∧ m.base = d ∧ m.contract = a
  live : ∀ d a, s.denomMap d = some a → a ∈ s.dynamic ∧ (s.erc a).isSome

/-- The logos are filed under their hashes. -/
def Filed (e : Env) (s : State) : Prop := ∀ h l, KV.get s.logos h = some l → l.hash = h ∧ h = e.sha l.data ∧ e.png l.data = true

/-- Logos of descriptions can be fetched. -/
def LogosThere (s : State) : Prop := ∀ d m, KV.get s.metas d = some m → m.logo ≠ [] → (KV.get s.logos m.logo).isSome

end Create
