import Verif.Authority.Propose
/-!
# Governance proposals made from the EVM: specification
-/
namespace Propose

/-- The proposals about the list of assets. -/
def Ask.aboutAssets : Ask → Prop
  | .addAssets .. => True
  | .updateAssets .. => True
  | .removeAssets .. => True
  | _ => False

/-- The proposals about the parameters of blocks. -/
def Ask.aboutBlocks : Ask → Prop
  | .blockParams .. => True
  | _ => False

/-- The arguments other than the deposit are in order. -/
def InOrder (r : Req) : Prop :=
  r.title ≠ [] ∧ r.description ≠ [] ∧
    (match r.ask with
     | .blockParams g b _ => 0 ≤ g ∧ 0 ≤ b
     | _ => r.parses = true)

/-- `n` coins are what a call with that deposit has to pay. -/
def Costs (a : Ask) (deposit n : Nat) : Prop :=
  (a.aboutAssets ∧ deposit < 2 ^ 63 ∧ n = deposit) ∨
  (a.aboutBlocks ∧ ∃ k, deposit = k * 2 ^ 64 + n ∧ n < 2 ^ 63) ∨
  (¬ a.aboutAssets ∧ ¬ a.aboutBlocks ∧ deposit < 2 ^ 64 ∧ n = deposit)

/-- Nothing but balances and the list of proposals differs. -/
def SameRules (s s' : State) : Prop :=
  s'.setting = s.setting ∧ s'.assets = s.assets ∧ s'.maxGas = s.maxGas ∧ s'.maxBytes = s.maxBytes

/-- The balances after a payment of `n` from `src` to `dst`. -/
def Paid (b b' : Addr → Nat) (src dst : Addr) (n : Nat) : Prop :=
  n ≤ b src ∧ (src = dst → ∀ a, b' a = b a) ∧
  (src ≠ dst → b' src = b src - n ∧ b' dst = b dst + n ∧ ∀ a, a ≠ src → a ≠ dst → b' a = b a)

/-- What a message does when it is handled for the account `who`. -/
def Does (e : Env) (who : Addr) (a : Act) (s s' : State) : Prop :=
  match a with
  | .pay d n => Paid s.bal s'.bal who d n ∧ s' = { s with bal := s'.bal }
  | .set v => who = e.gov ∧ s' = { s with setting := v }
  | .unrouted => False

/-- The account a message of a proposal for modules is handled for: governance if it is named in `Authority` or `Signer`, otherwise whoever the message says. -/
def actor (e : Env) (m : Msg) : Addr :=
  match m.field with
  | .other => m.name
  | _ => e.gov

/-- The messages are handled one after the other. -/
inductive DoesAll (e : Env) : State → List Msg → State → Prop
  | nil (s : State) : DoesAll e s [] s
  | cons {s s1 s' : State} {m : Msg} {ms : List Msg} : Does e (actor e m) m.act s s1 → DoesAll e s1 ms s' → DoesAll e s (m :: ms) s'

/-- What executing a content does. -/
def Executes (e : Env) (s : State) (c : Content) (s' : State) : Prop :=
  match c with
  | .assets l w => w = true ∧ s' = { s with assets := l }
  | .block g b w => w = true ∧ s' = { s with maxGas := g, maxBytes := b }
  | .hyperion m => m.kind = .hyperion ∧ Does e e.gov m.act s s'
  | .modules r ms => r ∈ genericRoutes e ∧ DoesAll e s ms s'

/-- The submission is tried out, except for parameters of blocks. -/
def Works (e : Env) (s : State) (a : Ask) : Prop := a.aboutBlocks ∨ ∃ s', Executes e s (contentOf e a) s'

/-- The content is what the call asked for: the same list of assets, the same limits of blocks in their places, or just the message given. -/
def AsAsked : Ask → Content → Prop
  | .addAssets l w, c => c = .assets l w
  | .updateAssets l w, c => c = .assets l w
  | .removeAssets l w, c => c = .assets l w
  | .blockParams g b w, c => c = .block g b w
  | .hyperion m, c => c = .hyperion m
  | .modular m _, c => ∃ route, c = .modules route [m]

/-- Executing the content can take coins from `a`: it has a message that names `a` in a field that is not replaced. -/
def Names (c : Content) (a : Addr) : Prop :=
  ∃ r ms, c = .modules r ms ∧ ∃ m ∈ ms, m.field = .other ∧ m.name = a

/-- No message of the content can pay from the governance account. -/
def SparesGov (e : Env) : Content → Prop
  | .hyperion m => ∀ d n, m.act ≠ .pay d n
  | .modules _ ms => ∀ m ∈ ms, ∀ d n, m.act = .pay d n → m.field = .other ∧ m.name ≠ e.gov
  | _ => True

/-- Governance takes coins from no account but its own: the balance of nobody else is smaller after a proposal has passed. -/
def TakesFromNobody (e : Env) : Prop :=
  ∀ s s' id a, finish e s id .passed = some s' → a ≠ e.gov → s.bal a ≤ s'.bal a

/-- The deposits of the proposals that have not ended are in the governance account. -/
def Backed (e : Env) (s : State) : Prop := (s.pending.map (·.deposit)).sum ≤ s.bal e.gov

/-- Proposals have different numbers, smaller than the next one. -/
def Numbered (s : State) : Prop := (s.pending.map (·.id)).Nodup ∧ ∀ p ∈ s.pending, p.id < s.next

/-- A call that does not ask for messages paying from the governance account, and is not made by that account. -/
def Op.Spares (e : Env) : Op → Prop
  | .propose r => SparesGov e (contentOf e r.ask) ∧ r.origin ≠ e.gov
  | .finish .. => True

/-- What a trimmed text is: between two blank texts, neither beginning nor ending with a blank. -/
def IsTrim (space : Char → Bool) (t r : Str) : Prop :=
  ∃ l l', t = l ++ r ++ l' ∧ (∀ c ∈ l, space c = true) ∧ (∀ c ∈ l', space c = true) ∧
    (∀ c, r.head? = some c → space c = false) ∧ ∀ c, r.getLast? = some c → space c = false

/-- The second of the parts between dots. -/
def SecondPart (url r : Str) : Prop :=
  '.' ∉ r ∧ ((∃ a, '.' ∉ a ∧ (url = a ++ '.' :: r ∨ ∃ c, url = a ++ '.' :: (r ++ '.' :: c))) ∨ ('.' ∉ url ∧ r = []))

end Propose
