import Verif.Lib.KV
/-!
# Creating tokens through the built-in contract, and logos

Model of /repo/helios-chain/precompiles/erc20creator/erc20creator.go, of the parts of /repo/helios-chain/x/erc20/keeper it uses (evm.go 21-93, token_pairs.go 25-29,
dynamic_precompiles.go 91-96) and of /repo/helios-chain/x/logos/keeper (keeper.go, msg_server.go).

Simplifications. Texts are lists of bytes, addresses numbers. The hash of a logo, the test whether a text is the base64 form of a 200x200 PNG picture, the test whether
a text is blank and the address of the contract created by the module with a given nonce are parameters (`Env`). The contract deployed is the project's
ERC20MinterBurnerDecimals; of its storage only balances and total supply are kept. Whether the two calls of the EVM succeed is given with the operation; a failed
deployment is taken to change nothing. The pair of a token is kept as two maps instead of through its identifier (C39 models the identifiers). Gas is not modelled.
The blocked addresses of the bank (module accounts) cannot be the origin of a transaction and are left out.
-/
namespace Create

abbrev Str := List UInt8

/-- `types.Logo` (keeper.go 104-108). The height is kept as a number. -/
structure Logo where
  hash : Str
  data : Str
  createdAt : Nat
deriving DecidableEq

/-- The fields of bank's `Metadata` that are set (erc20creator.go 147-166, evm.go 56-70). -/
structure Meta where
  base : Str
  name : Str
  symbol : Str
  decimals : Nat
  display : Str
  units : List (Str × Nat)
  logo : Str
  contract : Nat
deriving DecidableEq

/-- The deployed contract. -/
structure Erc where
  name : Str
  symbol : Str
  decimals : Nat
  total : Nat
  bal : Nat → Nat

structure Env where
  sha : Str → Str
  png : Str → Bool
  blank : Str → Bool
  addrOf : Nat → Nat

structure State where
  metas : List (Str × Meta) := []
  bal : Str → Nat → Nat := fun _ _ => 0
  supply : Str → Nat := fun _ => 0
  erc : Nat → Option Erc := fun _ => none
  seq : Nat := 0
  denomMap : Str → Option Nat := fun _ => none
  ercMap : Nat → Option Str := fun _ => none
  dynamic : List Nat := []
  logos : List (Str × Logo) := []
  maxLogo : Nat := 1048576

def upd {α β : Type} [DecidableEq α] (f : α → β) (a : α) (b : β) : α → β := fun x => if x = a then b else f x

/-- `ValidateBase64Logo` (keeper.go 66-95). The product `int(params.MaxLogoSize) * 4` is taken not to overflow. -/
def logoOk (e : Env) (max : Nat) (data : Str) : Bool :=
  if data.length > max * 4 / 3 then false else e.png data

/-- `StoreLogo` (keeper.go 98-114) and `SetLogo` (46-51). -/
def storeLogo (e : Env) (s : State) (data : Str) (height : Nat) : Option (State × Str) :=
  if logoOk e s.maxLogo data then
    some ({ s with logos := KV.set s.logos (e.sha data) { hash := e.sha data, data := data, createdAt := height } }, e.sha data)
  else none

/-- The arguments of a creation: those of the call, the origin of the transaction (`evm.Origin`), the account that calls, the height of the block and whether the
deployment and the minting succeed in the EVM. -/
structure Req where
  origin : Nat
  caller : Nat
  name : Str
  symbol : Str
  denom : Str
  supply : Nat
  decimals : Nat
  logo : Str
  height : Nat
  deploys : Bool := true
  mints : Bool := true

/-- `validateArguments` (erc20creator.go 256-298). -/
def argsOk (e : Env) (r : Req) : Bool :=
  if e.blank r.name then false
  else if e.blank r.symbol then false
  else if e.blank r.denom then false
  else if r.name.contains 32 then false
  else if r.symbol.contains 32 then false
  else if r.denom.contains 32 then false
  else if r.name.length > 128 then false
  else if r.symbol.length > 32 then false
  else if r.denom.length > 32 then false
  else if r.supply = 0 then false
  else if r.decimals > 18 then false
  else true

def letter (c : UInt8) : Bool := (decide (65 ≤ c) && decide (c ≤ 90)) || (decide (97 ≤ c) && decide (c ≤ 122))

def denomChar (c : UInt8) : Bool :=
  letter c || (decide (48 ≤ c) && decide (c ≤ 57)) || c == 47 || c == 58 || c == 46 || c == 95 || c == 45

/-- The SDK's `ValidateDenom`: `[a-zA-Z][a-zA-Z0-9/:._-]{2,127}`. -/
def denomOk : Str → Bool
  | [] => false
  | c :: t => letter c && t.all denomChar && decide (2 ≤ t.length) && decide (t.length ≤ 127)

/-- The loop over the units in the SDK's `Metadata.Validate`: the first is the base with exponent 0, exponents grow strictly, no denomination occurs twice, every
denomination is valid, and the display denomination occurs. -/
def unitsOk (display : Str) : Bool → Nat → List Str → List (Str × Nat) → Bool
  | hasDisplay, _, _, [] => hasDisplay
  | hasDisplay, cur, seen, (d, x) :: rest =>
    if ¬ (seen = []) ∧ x ≤ cur then false
    else if d ∈ seen then false
    else if denomOk d = false then false
    else unitsOk display (hasDisplay || decide (d = display)) x (d :: seen) rest

/-- The SDK's `Metadata.Validate` (called in erc20creator.go 169-171). The URI is empty. -/
def metaOk (e : Env) (m : Meta) : Bool :=
  if e.blank m.name then false
  else if e.blank m.symbol then false
  else if denomOk m.base = false then false
  else if denomOk m.display = false then false
  else match m.units with
    | [] => false
    | (d, x) :: rest => if d = m.base ∧ x = 0 then unitsOk m.display false 0 [] ((d, x) :: rest) else false

/-- The metadata assembled (erc20creator.go 147-166); the description is left out. -/
def metaOf (r : Req) (logo : Str) : Meta :=
  { base := r.denom, name := r.name, symbol := r.symbol, decimals := r.decimals, display := r.symbol,
    units := [(r.denom, 0), (r.symbol, r.decimals)], logo := logo, contract := 0 }

/-- The decimals the contract is deployed with: the exponent of the last unit (evm.go 25-29). -/
def lastExponent (m : Meta) : Nat := (m.units.getLast?.map (·.2)).getD 0

/-- `DeployERC20Contract` (evm.go 21-73): the contract gets the address of the module's next nonce, the metadata is stored under its base. -/
def deploy (e : Env) (s : State) (m : Meta) : State × Nat :=
  let a := e.addrOf s.seq
  ({ s with
      seq := s.seq + 1
      erc := upd s.erc a (some { name := m.name, symbol := m.symbol, decimals := lastExponent m, total := 0, bal := fun _ => 0 })
      metas := KV.set s.metas m.base { m with contract := a } }, a)

/-- `MintERC20Tokens` (evm.go 75-93); the call advances the module's nonce. -/
def mintErc (s : State) (a to amount : Nat) : State :=
  { s with
    seq := s.seq + 1
    erc := upd s.erc a ((s.erc a).map fun c => { c with total := c.total + amount, bal := upd c.bal to (c.bal to + amount) }) }

/-- `MintCoins` to the module and `SendCoinsFromModuleToAccount` to the origin (erc20creator.go 188-196). -/
def mintCoins (s : State) (d : Str) (to amount : Nat) : State :=
  { s with supply := upd s.supply d (s.supply d + amount), bal := upd s.bal d (upd (s.bal d) to (s.bal d to + amount)) }

/-- `SetToken` and `EnableDynamicPrecompiles` (erc20creator.go 199-205). -/
def registerPair (s : State) (d : Str) (a : Nat) : State :=
  { s with denomMap := upd s.denomMap d (some a), ercMap := upd s.ercMap a (some d), dynamic := a :: s.dynamic.erase a }

/-- From the check of the metadata on (erc20creator.go 130-235). The first component is what the call has written when it ends, the second the address it returns.
A sum of coins beyond 256 bits panics, which undoes the whole transaction. -/
def createTail (e : Env) (s0 s : State) (r : Req) (logo : Str) : State × Option Nat :=
  if argsOk e r = false then (s, none)
  else if r.origin = 0 then (s, none)
  else if (KV.get s.metas r.denom).isSome then (s, none)
  else if metaOk e (metaOf r logo) = false then (s, none)
  else if r.deploys = false then (s, none)
  else
    let (s, a) := deploy e s (metaOf r logo)
    if r.mints = false then (s, none)
    else
      let s := mintErc s a r.origin r.supply
      if 2 ^ 256 ≤ s.supply r.denom + r.supply then (s0, none)
      else (registerPair (mintCoins s r.denom r.origin r.supply) r.denom a, some a)

/-- `Run` of the built-in contract (erc20creator.go 99-250): the logo is stored first. -/
def create (e : Env) (s : State) (r : Req) : State × Option Nat :=
  if r.logo = [] then createTail e s s r []
  else match storeLogo e s r.logo r.height with
    | none => (s, none)
    | some (s', h) => createTail e s s' r h

/-- What can happen. `caught` says that the call was made by a contract that goes on after a failure: what the failed call had written then stays (C80); otherwise
the transaction fails and nothing stays. -/
inductive Op where
  | create (r : Req) (caught : Bool)
  | upload (data : Str) (height : Nat)
  | setMax (n : Nat)
  | send (d : Str) (src dst amount : Nat)

/-- `upload` is `StoreLogo` by message or through the built-in contract of logos (msg_server.go 25-47), `setMax` the update of the parameters by governance
(msg_server.go 53-65), which is not checked, `send` a transfer of coins. -/
def step (e : Env) (s : State) : Op → State
  | .create r caught =>
    match create e s r with
    | (s', some _) => s'
    | (s', none) => if caught then s' else s
  | .upload data h => match storeLogo e s data h with
    | some (s', _) => s'
    | none => s
  | .setMax n => { s with maxLogo := n }
  | .send d a b n =>
    if s.bal d a < n then s
    else
      let f := upd (s.bal d) a (s.bal d a - n)
      { s with bal := upd s.bal d (upd f b (f b + n)) }

def run (e : Env) (s : State) (ops : List Op) : State := ops.foldl (step e) s

end Create
