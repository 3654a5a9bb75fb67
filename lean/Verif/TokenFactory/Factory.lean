import Verif.TokenFactory.Denom
/-!
# The messages of the token factory (`x/tokenfactory/keeper`)
-/
namespace TokenFactory

/-- Bank metadata of a denomination: what the token factory stores, and the rest (description, display, units, links). -/
structure Metadata where
  name : Str
  symbol : Str
  decimals : Nat
  extra : Str
deriving DecidableEq, Repr

/-- What the token factory reads and writes. `admin d` is the admin in the authority metadata of `d`, empty if there is none
(admins.go 11-20: missing bytes decode to the empty value). `supply`, `bal` and `metadata` belong to the bank. `index` holds the keys
of the creator store (creators.go 8-11). -/
structure State where
  admin : Str → Str
  metadata : Str → Option Metadata
  supply : Str → Nat
  bal : Nat → Str → Nat
  index : List (Str × Str)

/-- Parameters: the codec, the governance authority, the creation fee, the address of the community pool, the accounts the bank
refuses to pay. `metaValid` is `Metadata.Validate` of the bank, left open. -/
structure Config where
  k : Codec
  authority : Str
  fee : List (Str × Nat)
  pool : Nat
  blocked : Nat → Bool
  helios : Str
  metaValid : Str → Metadata → Bool

inductive Msg where
  | create (sender subdenom name symbol : Str) (decimals : Nat)
  | mint (sender denom : Str) (amount : Int)
  | burn (sender denom : Str) (amount : Int)
  | changeAdmin (sender denom newAdmin : Str)
  | setMetadata (sender base : Str) (m : Metadata)

/-- The account whose signature the message needs (types/msgs.go `GetSigners`). -/
def Msg.sender : Msg → Str
  | .create s _ _ _ _ => s
  | .mint s _ _ => s
  | .burn s _ _ => s
  | .changeAdmin s _ _ => s
  | .setMetadata s _ _ => s

/-- `ValidateBasic` of the messages (types/msgs.go 69-81, 102-113, 134-145, 167-184, 205-235). -/
def validateBasic (g : Config) : Msg → Bool
  | .create s sub _ _ _ => (g.k.decode s).isSome && (getTokenDenom g.k s sub).isSome
  | .mint s d a => (g.k.decode s).isSome && (validateDenom d && decide (0 ≤ a)) && decide (a ≠ 0)
  | .burn s d a => (g.k.decode s).isSome && (validateDenom d && decide (0 ≤ a)) && decide (0 < a)
  | .changeAdmin s d n => (g.k.decode s).isSome && (g.k.decode n).isSome && (deconstruct g.k d).isSome
  | .setMetadata s b m => (g.k.decode s).isSome && g.metaValid b m && decide (b ≠ g.helios) && validateDenom b &&
      (decide ((split b).length ≤ 2) || (deconstruct g.k b).isSome)

def upd {α β : Type} [DecidableEq α] (f : α → β) (a : α) (b : β) : α → β := fun x => if x = a then b else f x

/-- Coins of one denomination taken from an account by the bank. -/
def take (bal : Nat → Str → Nat) (a : Nat) (d : Str) (n : Nat) : Option (Nat → Str → Nat) :=
  if bal a d < n then none else some (upd bal a (upd (bal a) d (bal a d - n)))

/-- Coins of one denomination given to an account. -/
def give (bal : Nat → Str → Nat) (a : Nat) (d : Str) (n : Nat) : Nat → Str → Nat := upd bal a (upd (bal a) d (bal a d + n))

/-- `FundCommunityPool` (createdenom.go 91-95). -/
def payFee (pool a : Nat) : List (Str × Nat) → (Nat → Str → Nat) → Option (Nat → Str → Nat)
  | [], bal => some bal
  | (d, n) :: cs, bal =>
    match take bal a d n with
    | none => none
    | some b => payFee pool a cs (give b pool d n)

/-- `createDenomAfterValidation` (createdenom.go 30-62); the checks of `setAuthorityMetadata` (admins.go 23-27) are the check that
the admin is empty or an address. The units are in `extra`, which starts empty. -/
def createAfter (g : Config) (s : State) (creator denom name symbol : Str) (decimals : Nat) : Option State :=
  if creator = [] ∨ (g.k.decode creator).isSome then
    some { s with
      metadata := upd s.metadata denom (some ⟨name, symbol, decimals, []⟩)
      admin := upd s.admin denom creator
      index := if (creator, denom) ∈ s.index then s.index else s.index ++ [(creator, denom)] }
  else none

/-- `createDenom` (createdenom.go 13-26, 64-97). -/
def create (g : Config) (s : State) (creator sub name symbol : Str) (decimals : Nat) : Option State :=
  if 0 < s.supply sub then none
  else match getTokenDenom g.k creator sub with
    | none => none
    | some denom =>
      if (s.metadata denom).isSome then none
      else match g.k.decode creator with
        | none => none
        | some a =>
          match payFee g.pool a g.fee s.bal with
          | none => none
          | some b => createAfter g { s with bal := b } creator denom name symbol decimals

/-- `Mint` (msg_server.go 60-90) with `mintTo` (bankactions.go 11-35): minted to the module account and sent on to the sender. -/
def mint (g : Config) (s : State) (sender denom : Str) (amount : Int) : Option State :=
  if (s.metadata denom).isNone then none
  else if sender ≠ s.admin denom then none
  else if (deconstruct g.k denom).isNone then none
  else if amount ≤ 0 then none
  else match g.k.decode sender with
    | none => none
    | some a =>
      if g.blocked a then none
      else some { s with
        supply := upd s.supply denom (s.supply denom + amount.toNat)
        bal := give s.bal a denom amount.toNat }

/-- `Burn` (msg_server.go 92-107) with `burnFrom` (bankactions.go 37-56): any denomination, from the sender's own balance. -/
def burn (g : Config) (s : State) (sender denom : Str) (amount : Int) : Option State :=
  if amount ≤ 0 then none
  else match g.k.decode sender with
    | none => none
    | some a =>
      match take s.bal a denom amount.toNat with
      | none => none
      | some b =>
        if s.supply denom < amount.toNat then none
        else some { s with bal := b, supply := upd s.supply denom (s.supply denom - amount.toNat) }

/-- `ChangeAdmin` (msg_server.go 109-133) with `setAdmin` (admins.go 40-49). -/
def changeAdmin (g : Config) (s : State) (sender denom newAdmin : Str) : Option State :=
  if sender ≠ s.admin denom then none
  else if newAdmin = [] ∨ (g.k.decode newAdmin).isSome then some { s with admin := upd s.admin denom newAdmin }
  else none

/-- May this sender set metadata (msg_server.go 149-153)? -/
def mayDescribe (g : Config) (s : State) (sender base : Str) : Bool :=
  (decide (s.admin base ≠ []) && decide (sender = s.admin base)) || (decide (s.admin base = []) && decide (sender = g.authority))

/-- Are the decimals unchanged, or not set yet (msg_server.go 155-160)? -/
def decimalsOk (old : Option Metadata) (m : Metadata) : Bool :=
  match old with
  | none => true
  | some o => !(decide (o.decimals ≠ 0) && decide (o.decimals ≠ m.decimals))

/-- `SetDenomMetadata` (msg_server.go 135-171). -/
def setMetadata (g : Config) (s : State) (sender base : Str) (m : Metadata) : Option State :=
  if g.metaValid base m = false then none
  else if mayDescribe g s sender base = false then none
  else if decimalsOk (s.metadata base) m = false then none
  else some { s with metadata := upd s.metadata base (some m) }

/-- The message server. -/
def handle (g : Config) (s : State) : Msg → Option State
  | .create c sub name sym dec => create g s c sub name sym dec
  | .mint c d a => mint g s c d a
  | .burn c d a => burn g s c d a
  | .changeAdmin c d n => changeAdmin g s c d n
  | .setMetadata c b m => setMetadata g s c b m

/-- How a message reaches the server. A transaction carries verified signatures, and the account named as sender must be among
them. A governance proposal of type `ModuleExecProposal` (app/generic_proposal_handler.go 29-45) runs any message after
setting its fields `Authority` and `Signer` to the governance account; the messages here call their field `Sender`, which
stays as the proposal has it. Both ways run `ValidateBasic` (the ante handler; the router of the SDK). A transfer between accounts
stands for what other modules do. -/
inductive Op where
  | tx (signers : List Nat) (m : Msg)
  | proposal (m : Msg)
  | transfer (src dst : Nat) (denom : Str) (amount : Nat)

/-- A failed message leaves the state as it was. -/
def deliver (g : Config) (s : State) (m : Msg) : State :=
  if validateBasic g m then (handle g s m).getD s else s

def step (g : Config) (s : State) : Op → State
  | .tx signers m =>
    match g.k.decode m.sender with
    | none => s
    | some a => if a ∈ signers then deliver g s m else s
  | .proposal m => deliver g s m
  | .transfer src dst d n =>
    match take s.bal src d n with
    | none => s
    | some b => { s with bal := give b dst d n }

def run (g : Config) (s : State) (ops : List Op) : State := ops.foldl (step g) s

/-- A denomination in a genesis file. -/
structure GenesisDenom where
  denom : Str
  admin : Str
  name : Str
  symbol : Str
  decimals : Nat
deriving DecidableEq, Repr

/-- `ExportGenesis` (genesis.go 37-62). -/
def exportGenesis (s : State) : List GenesisDenom :=
  s.index.map (fun x =>
    let m := (s.metadata x.2).getD ⟨[], [], 0, []⟩
    ⟨x.2, s.admin x.2, m.name, m.symbol, m.decimals⟩)

/-- `GenesisState.Validate` (types/genesis.go 23-51). -/
def validateGenesis (g : Config) : List GenesisDenom → List Str → Bool
  | [], _ => true
  | x :: xs, seen =>
    !seen.contains x.denom && (deconstruct g.k x.denom).isSome && (x.admin == [] || (g.k.decode x.admin).isSome) &&
      validateGenesis g xs (x.denom :: seen)

/-- `setAuthorityMetadata` (admins.go 23-38). -/
def setAuthority (g : Config) (s : State) (denom admin : Str) : Option State :=
  if admin = [] ∨ (g.k.decode admin).isSome then some { s with admin := upd s.admin denom admin } else none

/-- `InitGenesis` (genesis.go 11-34); a panic is `none`. -/
def initGenesis (g : Config) : List GenesisDenom → State → Option State
  | [], s => some s
  | x :: xs, s =>
    match deconstruct g.k x.denom with
    | none => none
    | some (creator, _) =>
      match createAfter g s creator x.denom x.name x.symbol x.decimals with
      | none => none
      | some s1 =>
        match setAuthority g s1 x.denom x.admin with
        | none => none
        | some s2 => initGenesis g xs s2

end TokenFactory
