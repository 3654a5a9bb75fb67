/-!
# The token pair registry (`x/erc20/keeper/token_pairs.go` and its callers)

Strings are lists of characters, addresses are numbers.
-/
namespace Erc20

abbrev Str := List Char

/-- Hexadecimal addresses: `parse` is `common.IsHexAddress` followed by `common.HexToAddress`, `print` is `Address.String()` with
its checksum capitals. Parsing accepts other capitalisations. -/
structure Hex where
  parse : Str → Option Nat
  print : Nat → Str
  parse_print : ∀ a, parse (print a) = some a
  no_bar : ∀ s, (parse s).isSome = true → '|' ∉ s

inductive Owner where
  | module
  | external
deriving DecidableEq, Repr

structure Pair where
  erc20 : Str
  denom : Str
  enabled : Bool
  owner : Owner
deriving DecidableEq, Repr

/-- `GetERC20Contract` (types/token_pair.go 46-48); stored pairs have a parsable address. -/
def Pair.contract (x : Hex) (p : Pair) : Nat := (x.parse p.erc20).getD 0

/-- What `GetID` hashes (types/token_pair.go 40-41). -/
def Pair.preimage (p : Pair) : Str := p.erc20 ++ '|' :: p.denom

/-- `GetID` (types/token_pair.go 40-43), for a hash function `H`. -/
def Pair.id (H : Str → Nat) (p : Pair) : Nat := H p.preimage

/-- The three stores of the module (types/keys.go 31-44) as partial functions, and the denominations the bank has metadata
for. -/
structure State where
  pairs : Nat → Option Pair
  byErc : Nat → Option Nat
  byDenom : Str → Option Nat
  described : List Str

/-- `store.Set` for `some`, `store.Delete` for `none`. -/
def upd {α β : Type} [DecidableEq α] (f : α → β) (a : α) (b : β) : α → β := fun x => if x = a then b else f x

structure Env where
  x : Hex
  H : Str → Nat
  /-- `utils.GetIBCDenomAddress`: an address from the hash in an IBC denomination. -/
  ibcAddr : Str → Option Nat

/-- `SetToken` (token_pairs.go 25-29). -/
def setToken (e : Env) (s : State) (p : Pair) : State :=
  { s with
    pairs := upd s.pairs (p.id e.H) (some p)
    byDenom := upd s.byDenom p.denom (some (p.id e.H))
    byErc := upd s.byErc (p.contract e.x) (some (p.id e.H)) }

/-- `GetTokenPairID` (token_pairs.go 61-67). -/
def pairId (e : Env) (s : State) (token : Str) : Option Nat :=
  match e.x.parse token with
  | some a => s.byErc a
  | none => s.byDenom token

/-- `GetTokenPair(GetTokenPairID(token))`. -/
def findPair (e : Env) (s : State) (token : Str) : Option Pair := (pairId e s token).bind s.pairs

/-- `DeleteTokenPair` (token_pairs.go 95-100). -/
def deletePair (e : Env) (s : State) (p : Pair) : State :=
  { s with
    pairs := upd s.pairs (p.id e.H) none
    byErc := upd s.byErc (p.contract e.x) none
    byDenom := upd s.byDenom p.denom none }

/-- `GetTokenDenom` (token_pairs.go 186-203). -/
def tokenDenom (s : State) (a : Nat) : Option Str := ((s.byErc a).bind s.pairs).map Pair.denom

/-- `GetCoinAddress` (token_pairs.go 166-182). -/
def coinAddress (e : Env) (s : State) (d : Str) : Option Nat :=
  match s.byDenom d with
  | none => e.ibcAddr d
  | some i => (s.pairs i).map (Pair.contract e.x)

/-- `types.CreateDenom`: `erc20/` and the address. -/
def erc20Denom (x : Hex) (a : Nat) : Str := ['e', 'r', 'c', '2', '0', '/'] ++ x.print a

/-- `registerERC20` (proposals.go 16-37, 41-110); `ok` says that the contract answers and its data is valid. -/
def register (e : Env) (s : State) (a : Nat) (ok : Bool) : State :=
  if (s.byErc a).isSome then s
  else if ok = false then s
  else if (erc20Denom e.x a) ∈ s.described then s
  else if (s.byDenom (erc20Denom e.x a)).isSome then s
  else setToken e { s with described := erc20Denom e.x a :: s.described } ⟨e.x.print a, erc20Denom e.x a, true, .external⟩

/-- The precompile that creates a token (precompiles/erc20creator/erc20creator.go 131-207): `a` is the address the contract was
deployed at. The limit on the length is `MaxSymbolLength`; the other argument checks are left out. -/
def createToken (e : Env) (s : State) (d : Str) (a : Nat) : State :=
  if 32 < d.length then s
  else if d ∈ s.described then s
  else setToken e { s with described := d :: s.described } ⟨e.x.print a, d, true, .module⟩

/-- A token of another chain is bridged for the first time (x/hyperion/keeper/tokens.go 218-272); `a` is the address the contract
was deployed at. -/
def bridgeToken (e : Env) (s : State) (d : Str) (a : Nat) : State :=
  match findPair e s d with
  | some _ => s
  | none => setToken e { s with described := d :: s.described } ⟨e.x.print a, d, true, .module⟩

/-- An IBC voucher arrives (ibc_callbacks.go 105-129, dynamic_precompiles.go 18-30, token_pairs.go 15-22, types/token_pair.go
16-27). -/
def receiveVoucher (e : Env) (s : State) (d : Str) : State :=
  match findPair e s d with
  | some _ => s
  | none =>
    match e.ibcAddr d with
    | none => s
    | some a => setToken e s ⟨e.x.print a, d, true, .module⟩

/-- `toggleConversion` (proposals.go 113-134). -/
def toggle (e : Env) (s : State) (token : Str) : State :=
  match findPair e s token with
  | none => s
  | some p => { s with pairs := upd s.pairs (p.id e.H) (some { p with enabled := !p.enabled }) }

/-- `ConvertERC20` for a contract that has no code any more (msg_server.go 26-61, mint.go 17-66): the pair is deleted. -/
def convertDead (e : Env) (s : State) (token : Str) : State :=
  match findPair e s token with
  | none => s
  | some p => if p.enabled && decide (p.owner = .external) then deletePair e s p else s

/-- `InitGenesis` (genesis.go 36-43, 110): every pair is stored. -/
def initGenesis (e : Env) (ps : List Pair) (s : State) : State := ps.foldl (setToken e) s

/-- `GenesisState.Validate` (types/genesis.go 38-56): no address string and no denomination twice. -/
def validateGenesis (x : Hex) : List Pair → List Str → List Str → Bool
  | [], _, _ => true
  | p :: ps, ercs, denoms =>
    !ercs.contains p.erc20 && !denoms.contains p.denom && (x.parse p.erc20).isSome &&
      validateGenesis x ps (p.erc20 :: ercs) (p.denom :: denoms)

inductive Op where
  | register (a : Nat) (ok : Bool)
  | create (d : Str) (a : Nat)
  | bridge (d : Str) (a : Nat)
  | voucher (d : Str)
  | toggle (token : Str)
  | convertDead (token : Str)
  | describe (d : Str)

def step (e : Env) (s : State) : Op → State
  | .register a ok => register e s a ok
  | .create d a => createToken e s d a
  | .bridge d a => bridgeToken e s d a
  | .voucher d => receiveVoucher e s d
  | .toggle t => toggle e s t
  | .convertDead t => convertDead e s t
  | .describe d => { s with described := d :: s.described }

def run (e : Env) (s : State) (ops : List Op) : State := ops.foldl (step e) s

end Erc20
