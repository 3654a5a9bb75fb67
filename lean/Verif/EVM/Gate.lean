import Verif.Lib.Sort
/-
Who may call and deploy contracts, and which built-in contract answers at an address.

Models
* /repo/helios-chain/x/evm/types/permissions.go (the policy for calls and deployments),
* /repo/helios-chain/x/evm/types/opcodes_hooks.go and x/evm/keeper/state_transition.go 63-75 (the hooks and
  their order),
* /repo/helios-chain/x/evm/keeper/precompiles.go, static_precompiles.go 145-172 and
  x/erc20/keeper/precompiles.go 15-66 (finding the built-in contract of an address),
* /repo/helios-chain/x/evm/core/vm/evm.go 175-600 and contracts.go 165-215 (where the hooks run and how the
  set of built-in contracts of a running transaction is replaced),
* /repo/helios-chain/x/evm/types/params.go 110-270, x/evm/keeper/params.go 27-90 and types/validation.go
  21-30 (which parameters are accepted).
-/
namespace Gate

/-- An address: its 40 half-bytes, highest first.  (`common.Address` is 20 bytes; only its text and equality
matter here.) -/
abbrev Addr := List (Fin 16)

/-- A text: the codes of its characters. -/
abbrev Text := List Nat

/-- The digit `n` in small letters. -/
def small (n : Fin 16) : Nat := if n.val < 10 then 48 + n.val else 87 + n.val

/-- The digit `n` in capital letters. -/
def big (n : Fin 16) : Nat := if n.val < 10 then 48 + n.val else 55 + n.val

/-- The digits of an address, each in capitals where `caps` says so (go-ethereum common/types.go
`checksumHex`: the capitals of a digit depend on the Keccak hash of the digits; the hash is the parameter
`caps : address → place → Bool`). -/
def digits (caps : Addr → Nat → Bool) (a : Addr) : Text :=
  (a.zipIdx).map fun d => if caps a d.2 then big d.1 else small d.1

/-- `addr.String()`: "0x" and the digits with their capitals. -/
def text (caps : Addr → Nat → Bool) (a : Addr) : Text := 48 :: 120 :: digits caps a

/-- The value of a digit (go-ethereum common/bytes.go `isHexCharacter`, encoding/hex). -/
def value (c : Nat) : Option (Fin 16) :=
  if h : 48 ≤ c ∧ c < 58 then some ⟨c - 48, by omega⟩
  else if h : 97 ≤ c ∧ c < 103 then some ⟨c - 87, by omega⟩
  else if h : 65 ≤ c ∧ c < 71 then some ⟨c - 55, by omega⟩
  else none

/-- A text without its "0x" or "0X" (go-ethereum `has0xPrefix`). -/
def bare (t : Text) : Text :=
  match t with
  | 48 :: 120 :: r => r
  | 48 :: 88 :: r => r
  | t => t

/-- `common.IsHexAddress` and types/validation.go 21-30 `ValidateAddress`: forty digits, with or without "0x". -/
def isAddress (t : Text) : Bool := decide ((bare t).length = 40) && (bare t).all fun c => (value c).isSome

/-- x/evm/types/params.go `AccessControlType`: 0 permissionless, 1 restricted, 2 permissioned
(evm.pb.go 33-37), and the list. -/
structure Policy where
  access : Nat
  list : List Text
deriving DecidableEq

/-- x/evm/types `Params`, as far as access control and built-in contracts go. -/
structure Params where
  create : Policy
  call : Policy
  active : List Text
deriving DecidableEq

/-- permissions.go 88-102 and 112-126 with 130-150: may `caller` act in a transaction of `signer`?
(`getCanCreateFn` and `getCanCallFn` are the same but for the policy they read.) -/
def may (caps : Addr → Nat → Bool) (p : Policy) (signer caller : Addr) : Bool :=
  match p.access with
  | 0 => !p.list.contains (text caps signer) && !p.list.contains (text caps caller)
  | 2 => p.list.contains (text caps signer) || p.list.contains (text caps caller)
  | _ => false

/-- params.go 163-207: the access type is known and every entry of the list is an address. -/
def Policy.valid (p : Policy) : Bool := decide (p.access < 3) && p.list.all isAddress

/-- params.go 238-258, the loop: no text twice, and every text is an address. -/
def validActive : List Text → Bool
  | [] => true
  | t :: l => !l.contains t && isAddress t && validActive l

/-- The order of texts (Go compares strings byte by byte). -/
def textLe : Text → Text → Bool
  | [], _ => true
  | _ :: _, [] => false
  | a :: l, b :: m => if a < b then true else if b < a then false else textLe l m

/-- x/evm/keeper/params.go 27-45 `SetParams` with params.go 110-133: the active list is sorted and all is
checked (names of extra EIPs and IBC channels are left out). -/
def setParams (p : Params) : Option Params :=
  let q := { p with active := StableSort.sortBy textLe p.active }
  if validActive q.active && (q.create.valid && q.call.valid) then some q else none

/-- x/evm/keeper/params.go 54-88 `EnableStaticPrecompiles`. -/
def enable (caps : Addr → Nat → Bool) (p : Params) (l : List Addr) : Option Params :=
  if l.any fun a => p.active.contains (text caps a) then none
  else setParams { p with active := p.active ++ l.map (text caps) }

/-- The addresses 1 to 9 (contracts.go 119-131 `PrecompiledAddressesBerlin`). -/
def berlin : List Addr := [1, 2, 3, 4, 5, 6, 7, 8, 9].map fun n => List.replicate 39 0 ++ [n]

/-- What a transaction finds in the chain: parameters and built-in contracts.  All of it is read from the
context the transaction started with (state_transition.go 71-74), so it is the same for all its calls. -/
structure Env (B : Type) where
  caps : Addr → Nat → Bool
  params : Params
  /-- `k.precompiles`, static_precompiles.go 42-143 -/
  own : Addr → Option B
  /-- x/erc20/keeper/precompiles.go: `none` not enabled; `some none` enabled without a token pair;
  `some (some b)` the contract of the token pair -/
  token : Addr → Option (Option B)

/-- The result of looking for a built-in contract. -/
inductive Found (B : Type) where
  /-- the program panics -/
  | panic
  /-- the call is refused with an error -/
  | error
  /-- no built-in contract here -/
  | nothing
  | contract (b : B)

/-- static_precompiles.go 168-172 `IsAvailableStaticPrecompile`. -/
def Env.isActive (e : Env B) (a : Addr) : Bool :=
  e.params.active.contains (text e.caps a) || berlin.contains a

/-- keeper/precompiles.go 17-45 `GetPrecompileInstance` with static_precompiles.go 151-163 and
x/erc20/keeper/precompiles.go 15-33. -/
def Env.find (e : Env B) (a : Addr) : Found B :=
  if e.isActive a then
    match e.own a with
    | none => .panic
    | some b => .contract b
  else match e.token a with
    | none => .nothing
    | some none => .error
    | some (some b) => .contract b

/-- The four ways to call. -/
inductive Kind where
  | call | callcode | delegatecall | staticcall
deriving DecidableEq

/-- What happened in a transaction: code or a built-in contract of an address ran, or a contract was deployed. -/
inductive Event (B : Type) where
  | ran (kind : Kind) (caller to : Addr) (what : Option B)
  | deployed (caller new : Addr)

/-- A transaction under way. -/
structure St (B : Type) where
  /-- has the first call or deployment been tried? -/
  started : Bool
  /-- the addresses the running frames act as, innermost first -/
  frames : List Addr
  /-- `evm.precompiles` -/
  table : Addr → Option B
  log : List (Event B)

/-- One step: the transaction or the running contract calls or deploys, or the running contract returns.
`fits` says that the checks after the hooks (depth, balance, nonce, address not in use) pass. -/
inductive Op where
  | call (kind : Kind) (to : Addr) (fits : Bool)
  | create (new : Addr) (fits : Bool)
  | leave

/-- Who calls: first the signer (state_transition.go 359-379), then the running frame; nobody when the
transaction is over. -/
def St.caller (s : St B) (signer : Addr) : Option Addr :=
  if s.started then s.frames.head? else some signer

/-- evm.go 175-413: the call hooks — the policy, then the built-in contracts (state_transition.go 71-74) —,
the checks, and the built-in contract or the code.  With CALLCODE and DELEGATECALL the code acts as the caller.
`none`: the program panics. -/
def call (e : Env B) (s : St B) (signer caller : Addr) (k : Kind) (to : Addr) (fits : Bool) : Option (St B) :=
  if may e.caps e.params.call signer caller then
    match e.find to with
    | .panic => none
    | .error => some s
    | .nothing => go s
    | .contract b => go { s with table := fun a => if a = to then some b else none }
  else some s
where
  go (s : St B) : Option (St B) :=
    if fits then
      match s.table to with
      | some b => some { s with log := s.log ++ [.ran k caller to (some b)] }
      | none =>
        some { s with
          frames := (match k with | .call | .staticcall => to | .callcode | .delegatecall => caller) :: s.frames
          log := s.log ++ [.ran k caller to none] }
    else some s

/-- evm.go 521-546: the create hook, the checks and the constructor. -/
def create (e : Env B) (s : St B) (signer caller new : Addr) (fits : Bool) : Option (St B) :=
  if may e.caps e.params.create signer caller then
    if fits then some { s with frames := new :: s.frames, log := s.log ++ [.deployed caller new] }
    else some s
  else some s

/-- One step of a transaction of `signer`. -/
def step (e : Env B) (signer : Addr) (s : St B) : Op → Option (St B)
  | .call k to fits =>
    match s.caller signer with
    | none => some s
    | some c => call e { s with started := true } signer c k to fits
  | .create new fits =>
    match s.caller signer with
    | none => some s
    | some c => create e { s with started := true } signer c new fits
  | .leave => some { s with frames := s.frames.tail }

/-- The transaction before its first step; `table` is the set of built-in contracts of the fork
(contracts.go 179-193 `DefaultPrecompiles`). -/
def start (table : Addr → Option B) : St B := ⟨false, [], table, []⟩

/-- A whole transaction. -/
def run (e : Env B) (signer : Addr) : St B → List Op → Option (St B)
  | s, [] => some s
  | s, o :: os => match step e signer s o with | none => none | some t => run e signer t os

end Gate
