/-!
# EVM state: calls of precompiled contracts

Models how a precompiled contract that changes other modules takes part in the state of a transaction: the cached context, its snapshots in the journal, and
the balance changes that the contract reports (`/repo/helios-chain/x/evm/statedb/statedb.go`, `journal.go`, `/repo/helios-chain/precompiles/common/precompile.go`
and the `Run` methods of the contracts).

Simplifications, stated once:
* accounts have a balance and storage; nonces, codes, self-destruction, logs, refunds and the access list are in `StateDB.lean`, they are not touched by
  precompiled contracts;
* addresses, keys and words are natural numbers; the coin has 18 decimals;
* the stores of all other modules are one value of type `X`; a handler reads balances and that value;
* a layer of the cached multi store is the function that writes it into its parent, so that reading through a layer is applying it; cached reads are left out;
* all dirty accounts are written at once, and nothing is written if one of them cannot be (in the code the ones with smaller addresses are written);
* gas, events and the return data are left out; running out of gas is one of the ways in which a handler fails.
-/
namespace PC

abbrev Addr := Nat
abbrev Key := Nat
abbrev Word := Nat

/-- Pointwise update. -/
def upd {α : Type} (f : Nat → α) (a : Nat) (v : α) : Nat → α := fun b => if b = a then v else f b

/-- Everything that is stored: accounts, balances of the EVM coin, storage of contracts, and the other modules. -/
structure Full (X : Type) where
  exist : Addr → Bool
  bal : Addr → Int
  state : Addr → Key → Word
  rest : X

/-- A layer of the cached multi store (`CacheContext`, statedb.go 117-124). -/
abbrev Layer (X : Type) := Full X → Full X

/-- `stateObject` (state_object.go 49-66). -/
structure Obj where
  balance : Int
  origin : Key → Option Word := fun _ => none
  dirty : Key → Option Word := fun _ => none

/-- Journal entries (journal.go 96-147). -/
inductive Entry (X : Type) where
  | create (a : Addr)
  | balance (a : Addr) (prev : Int)
  | storage (a : Addr) (k : Key) (prev : Word)
  | precompile (snap : Layer X)

/-- `Dirtied` (journal.go 176-279). -/
def Entry.dirtied {X : Type} : Entry X → Option Addr
  | .create a => some a
  | .balance a _ => some a
  | .storage a _ _ => some a
  | .precompile _ => none

/-- What a handler does with the balances and stores it finds: `delta` are the changes of balances it makes in the bank module, `rest` what the other modules hold
afterwards, `report` the changes it hands to `SetBalanceChangeEntries` (precompile.go 201-203), and whether it succeeds. -/
structure Outcome (X : Type) where
  delta : List (Addr × Int)
  rest : X
  report : List (Addr × Int)
  ok : Bool

abbrev Handler (X : Type) := (Addr → Int) → X → Outcome X

/-- A call of a precompiled contract: its address, whether method and arguments are acceptable (`RunSetup`, precompile.go 99-137), whether `Run` calls
`stateDB.Commit` before the handler (chronos.go 94, hyperion.go 107, gov.go 113, logos.go 90), and the handler. -/
structure Call (X : Type) where
  addr : Addr
  valid : Bool := true
  commits : Bool := false
  handler : Handler X

/-- `StateDB` (statedb.go 34-64). `ctx` is the content of the store under `s.ctx`; `cache` the layer of `cacheCtx`, if there is one. -/
structure SDB (X : Type) where
  ctx : Full X
  cache : Option (Layer X) := none
  objs : Addr → Option Obj := fun _ => none
  journal : List (Entry X) := []
  revs : List (Nat × Nat) := []
  nextRev : Nat := 0
  calls : Nat := 0

/-- What can be asked of and done to the state. -/
inductive Op (X : Type) where
  | exist (a : Addr)
  | getBalance (a : Addr)
  | getState (a : Addr) (k : Key)
  | addBalance (a : Addr) (n : Int)
  | setState (a : Addr) (k : Key) (w : Word)
  | snapshot
  | revert (id : Nat)
  | call (c : Call X)

inductive Out where
  | done
  | bool (b : Bool)
  | int (i : Int)
  | nat (n : Nat)
deriving DecidableEq

section
variable {X : Type}

namespace SDB

/-- `getStateObject` reads accounts from `s.ctx`, not from the cached context (statedb.go 257-271). -/
def fetch (s : SDB X) (a : Addr) : Option Obj := if s.ctx.exist a then some { balance := s.ctx.bal a } else none

def lookup (s : SDB X) (a : Addr) : Option Obj :=
  match s.objs a with
  | some o => some o
  | none => s.fetch a

def load (s : SDB X) (a : Addr) : SDB X :=
  match s.objs a with
  | some _ => s
  | none => { s with objs := upd s.objs a (s.fetch a) }

def put (s : SDB X) (a : Addr) (o : Obj) : SDB X := { s with objs := upd s.objs a (some o) }

/-- `journal.append` (journal.go 68-73). -/
def append (s : SDB X) (e : Entry X) : SDB X := { s with journal := e :: s.journal }

/-- `getOrNewStateObject` (statedb.go 274-299). -/
def getOrNew (s : SDB X) (a : Addr) : SDB X × Obj :=
  match s.lookup a with
  | some o => (s.load a, o)
  | none => ((s.append (.create a)).put a { balance := 0 }, { balance := 0 })

/-- `AddBalance` and `SubBalance` (statedb.go 360-374, state_object.go 100-126): subtracting is adding a negative number. -/
def addBalance (s : SDB X) (a : Addr) (n : Int) : SDB X :=
  let (s, o) := s.getOrNew a
  if n = 0 then s else (s.append (.balance a o.balance)).put a { o with balance := o.balance + n }

/-- `GetState` (state_object.go 218-234): the value, and the object with the loaded slot. -/
def stateVal (s : SDB X) (a : Addr) (o : Obj) (k : Key) : Word := (o.dirty k).getD ((o.origin k).getD (s.ctx.state a k))

def touch (s : SDB X) (a : Addr) (o : Obj) (k : Key) : Obj :=
  match o.dirty k with
  | some _ => o
  | none => { o with origin := upd o.origin k (some ((o.origin k).getD (s.ctx.state a k))) }

/-- `SetState` (state_object.go 236-254). -/
def setState (s : SDB X) (a : Addr) (k : Key) (w : Word) : SDB X :=
  let (s, o) := s.getOrNew a
  let o' := s.touch a o k
  if s.stateVal a o k = w then s.put a o'
  else (s.append (.storage a k (s.stateVal a o k))).put a { o' with dirty := upd o'.dirty k (some w) }

/-- The accounts that were changed (`sortedDirties`, journal.go 56-65). -/
def dirties (s : SDB X) : List Addr := s.journal.filterMap Entry.dirtied

/-- What `commitWithCtx` writes (statedb.go 525-555): account, balance (by minting or burning the difference to what is there, keeper/statedb.go 113-134) and the
dirty slots of the changed accounts. -/
def write (s : SDB X) : Layer X := fun F =>
  { F with
    exist := fun a => F.exist a || decide (a ∈ s.dirties)
    bal := fun a => if a ∈ s.dirties then (match s.objs a with | some o => o.balance | none => F.bal a) else F.bal a
    state := fun a k => if a ∈ s.dirties then (match s.objs a with | some o => (o.dirty k).getD (F.state a k) | none => F.state a k) else F.state a k }

/-- A negative balance cannot be written. -/
def writable (s : SDB X) : Bool := s.dirties.all (fun a => match s.objs a with | some o => decide (0 ≤ o.balance) | none => false)

/-- `Commit` (statedb.go 507-514): the cached layer is written into the store, then the changed accounts. -/
def commit (s : SDB X) : Option (SDB X) :=
  if s.writable then some { s with ctx := s.write ((s.cache.getD id) s.ctx), cache := s.cache.map (fun _ => id) } else none

/-- The `Revert` methods of the journal entries (journal.go 164-232). -/
def undo (s : SDB X) : Entry X → SDB X
  | .create a => { s with objs := upd s.objs a none }
  | .balance a p => match s.lookup a with
    | some o => s.put a { o with balance := p }
    | none => s
  | .storage a k p => match s.lookup a with
    | some o => s.put a { o with dirty := upd o.dirty k (some p) }
    | none => s
  | .precompile L => { s with cache := some L }

/-- `journal.Revert` (journal.go 77-90), for the newest `n` entries. -/
def undoN (s : SDB X) : Nat → SDB X
  | 0 => s
  | n + 1 =>
    match s.journal with
    | [] => s
    | e :: j => undoN { s.undo e with journal := j } n

/-- `RevertToSnapshot` (statedb.go 490-503). -/
def revertTo (s : SDB X) (id : Nat) : Option (SDB X) :=
  match s.revs.find? (fun r => r.1 == id) with
  | none => none
  | some r => some { s.undoN (s.journal.length - r.2) with revs := s.revs.filter (fun q => q.1 < id) }

/-- The net change of the balance of an account. -/
def net (l : List (Addr × Int)) (a : Addr) : Int := (l.map (fun e => if e.1 = a then e.2 else 0)).sum

/-- What a handler writes into the layer above `F`: balances that change (the bank creates accounts that receive coins), and the other modules. -/
def effect (F : Full X) (r : Outcome X) : Layer X := fun K =>
  { K with
    exist := fun a => K.exist a || decide (0 < net r.delta a)
    bal := fun a => if net r.delta a = 0 then K.bal a else F.bal a + net r.delta a
    rest := r.rest }

/-- `AddJournalEntries` and `AddPrecompileFn` (precompile.go 178-195, statedb.go 343-358, state_object.go 128-137): at most 7 calls in a transaction. -/
def register (s : SDB X) (c : Call X) (snap : Layer X) (report : List (Addr × Int)) : SDB X × Bool :=
  let s := report.foldl (fun s e => s.addBalance e.1 e.2) s
  let s := (s.getOrNew c.addr).1.append (.precompile snap)
  ({ s with calls := s.calls + 1 }, decide (s.calls + 1 ≤ 7))

/-- `Run` from the handler on (for instance staking.go 128-190). If it fails, what it has written stays in the cached layer. -/
def finish (s : SDB X) (c : Call X) (snap : Layer X) : SDB X × Bool :=
  let L := s.cache.getD id
  let F := L s.ctx
  let r := c.handler F.bal F.rest
  let s := { s with cache := some (fun K => effect F r (L K)) }
  if r.ok then s.register c snap r.report else (s, false)

/-- `RunSetup` (precompile.go 71-158) and `Run`. -/
def call (s : SDB X) (c : Call X) : SDB X × Bool :=
  let snap := s.cache.getD id
  let s := { s with cache := some snap }
  if s.writable = false then (s, false)
  else
    let s := { s with cache := some (fun K => s.write (snap K)) }
    if c.valid = false then (s, false)
    else if c.commits then
      match s.commit with
      | none => (s, false)
      | some s => s.finish c snap
    else s.finish c snap

/-- One operation. -/
def step (s : SDB X) : Op X → Option (SDB X × Out)
  | .exist a => some (s.load a, .bool (s.lookup a).isSome)
  | .getBalance a => some (s.load a, .int (match s.lookup a with | none => 0 | some o => o.balance))
  | .getState a k =>
    match s.lookup a with
    | none => some (s.load a, .nat 0)
    | some o => some (s.put a (s.touch a o k), .nat (s.stateVal a o k))
  | .addBalance a n => some (s.addBalance a n, .done)
  | .setState a k w => some (s.setState a k w, .done)
  | .snapshot => some ({ s with nextRev := s.nextRev + 1, revs := s.revs ++ [(s.nextRev, s.journal.length)] }, .nat s.nextRev)
  | .revert id => (s.revertTo id).map fun s => (s, .done)
  | .call c => let (s, ok) := s.call c; some (s, .bool ok)

/-- A sequence of operations and what they return. -/
def run (s : SDB X) : List (Op X) → Option (SDB X × List Out)
  | [] => some (s, [])
  | op :: ops => (s.step op).bind fun (s, o) => (run s ops).map fun (s, os) => (s, o :: os)

end SDB
end
end PC
