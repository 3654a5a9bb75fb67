import Verif.Lib.Sort
/-!
# EVM state: the journaled StateDB

Models `/repo/helios-chain/x/evm/statedb` (`statedb.go`, `journal.go`, `state_object.go`, `access_list.go`) over the keeper's
store (`/repo/helios-chain/x/evm/keeper/statedb.go`).

Simplifications, stated once:
* addresses, storage keys, words and code hashes are natural numbers (fixed-width byte strings compare like numbers); `H` is
  Keccak-256; the EVM coin has 18 decimals (`AdjustExtraDecimalsBigInt` is the identity, `types/scaling.go` 90-101);
* amounts passed in are non-negative (the EVM passes 256-bit unsigned numbers); balances are integers because `SubBalance` does
  not check;
* a slot that is absent and a slot that holds 32 zero bytes are identified in the store (`GetState` cannot tell them apart,
  `keeper/statedb.go` 35-44);
* Go maps are functions; `nil` and empty code are identified in `SetCode`;
* precompile calls (`AddPrecompileFn`, `cacheCtx`) are not modelled;
* pointers are values: an object replaced by `CreateAccount` is reachable from the journal only.
`none` stands for a panic, or for an error returned by `Commit`.
-/
namespace EVM

abbrev Addr := Nat
abbrev Key := Nat
abbrev Word := Nat
abbrev Hash := Nat
abbrev Bytes := List UInt8

/-- Pointwise update of a map. -/
def upd {α : Type} (f : Nat → α) (a : Nat) (v : α) : Nat → α := fun b => if b = a then v else f b

/-- What the keeper reads and writes: auth accounts (their sequence), bank balances of the EVM coin, code hashes, codes and
storage (`keeper/statedb.go`). -/
structure Store where
  seq : Addr → Option Nat
  bal : Addr → Nat
  codeHash : Addr → Option Hash
  code : Hash → Option Bytes
  state : Addr → Key → Word

/-- `stateObject` (state_object.go 49-66) without the back pointer and the address; `code = none` is `nil`. -/
structure Obj where
  nonce : Nat
  balance : Int
  codeHash : Hash
  code : Option Bytes := none
  origin : Key → Option Word := fun _ => none
  dirty : Key → Option Word := fun _ => none
  dirtyCode : Bool := false
  suicided : Bool := false

/-- `accessList` (access_list.go 23-26). -/
structure AccessList where
  addresses : Addr → Option Int := fun _ => none
  slots : List (List Key) := []

namespace AccessList

/-- `ContainsAddress` (access_list.go 29-32). -/
def containsAddress (al : AccessList) (a : Addr) : Bool := (al.addresses a).isSome

/-- `Contains` (access_list.go 36-48). -/
def contains (al : AccessList) (a : Addr) (k : Key) : Bool × Bool :=
  match al.addresses a with
  | none => (false, false)
  | some i => if i = -1 then (true, false) else (true, ((al.slots[i.toNat]?).getD []).contains k)

/-- `AddAddress` (access_list.go 59-65). -/
def addAddress (al : AccessList) (a : Addr) : AccessList × Bool :=
  match al.addresses a with
  | some _ => (al, false)
  | none => ({ al with addresses := upd al.addresses a (some (-1)) }, true)

/-- `AddSlot` (access_list.go 72-91). -/
def addSlot (al : AccessList) (a : Addr) (k : Key) : AccessList × Bool × Bool :=
  let fresh : AccessList := { addresses := upd al.addresses a (some al.slots.length), slots := al.slots ++ [[k]] }
  match al.addresses a with
  | none => (fresh, true, true)
  | some i =>
    if i = -1 then (fresh, false, true)
    else if ((al.slots[i.toNat]?).getD []).contains k then (al, false, false)
    else ({ al with slots := al.slots.modify i.toNat (k :: ·) }, false, true)

/-- `DeleteSlot` (access_list.go 96-110); `none` is the panic, or an index out of range. -/
def deleteSlot (al : AccessList) (a : Addr) (k : Key) : Option AccessList :=
  match al.addresses a with
  | none => none
  | some i =>
    if i < 0 then none
    else match al.slots[i.toNat]? with
      | none => none
      | some m =>
        let m' := m.filter (· ≠ k)
        if m' = [] then some { addresses := upd al.addresses a (some (-1)), slots := al.slots.take i.toNat }
        else some { al with slots := al.slots.set i.toNat m' }

/-- `DeleteAddress` (access_list.go 116-118). -/
def deleteAddress (al : AccessList) (a : Addr) : AccessList := { al with addresses := upd al.addresses a none }

end AccessList

/-- A log (the fields set by `AddLog` that depend on the state). -/
structure Log where
  data : Nat
  index : Nat
deriving DecidableEq

/-- Journal entries (journal.go 96-144). -/
inductive Entry where
  | create (a : Addr)
  | reset (a : Addr) (prev : Obj)
  | suicide (a : Addr) (prev : Bool) (prevbalance : Int)
  | balance (a : Addr) (prev : Int)
  | nonce (a : Addr) (prev : Nat)
  | storage (a : Addr) (k : Key) (prev : Word)
  | code (a : Addr) (prevcode : Option Bytes) (prevhash : Hash)
  | refund (prev : Nat)
  | addLog
  | alAddr (a : Addr)
  | alSlot (a : Addr) (k : Key)

/-- `Dirtied` (journal.go 184-279). -/
def Entry.dirtied : Entry → Option Addr
  | .create a => some a
  | .reset _ _ => none
  | .suicide a _ _ => some a
  | .balance a _ => some a
  | .nonce a _ => some a
  | .storage a _ _ => some a
  | .code a _ _ => some a
  | _ => none

/-- `dirties[a]++` (journal.go 71). -/
def bump (a : Addr) : List (Addr × Int) → List (Addr × Int)
  | [] => [(a, 1)]
  | (b, n) :: r => if b = a then (b, n + 1) :: r else (b, n) :: bump a r

/-- `dirties[a]--` with the deletion at zero (journal.go 84-86). -/
def unbump (a : Addr) : List (Addr × Int) → List (Addr × Int)
  | [] => [(a, -1)]
  | (b, n) :: r => if b = a then (if n - 1 = 0 then r else (b, n - 1) :: r) else (b, n) :: unbump a r

/-- `StateDB` (statedb.go 34-64).  The journal is kept newest entry first; `dirties` is the map of the journal. -/
structure SDB where
  objs : Addr → Option Obj := fun _ => none
  journal : List Entry := []
  dirties : List (Addr × Int) := []
  revs : List (Nat × Nat) := []
  nextRev : Nat := 0
  refund : Nat := 0
  logs : List Log := []
  al : AccessList := {}
  logIndex : Nat := 0

section
variable (H : Bytes → Hash)

/-- `GetAccount` with `GetCodeHash` and the bank balance (keeper/statedb.go 24-32, 54-62, keeper.go 221-234), already made an
object (`newObject`, state_object.go 69-85). -/
def Store.getObj (K : Store) (a : Addr) : Option Obj :=
  (K.seq a).map fun n => { nonce := n, balance := K.bal a, codeHash := (K.codeHash a).getD (H []) }

/-- `newObject` with an empty account (state_object.go 69-85). -/
def newObj : Obj := { nonce := 0, balance := 0, codeHash := H [] }

namespace SDB
variable (K : Store)

/-- The object `getStateObject` returns (statedb.go 257-271). -/
def lookup (s : SDB) (a : Addr) : Option Obj :=
  match s.objs a with
  | some o => some o
  | none => K.getObj H a

/-- The state after `getStateObject`: the loaded object is kept (statedb.go 268-269). -/
def load (s : SDB) (a : Addr) : SDB :=
  match s.objs a with
  | some _ => s
  | none => { s with objs := upd s.objs a (K.getObj H a) }

/-- `setStateObject` (statedb.go 335-337). -/
def put (s : SDB) (a : Addr) (o : Obj) : SDB := { s with objs := upd s.objs a (some o) }

/-- `journal.append` (journal.go 68-73). -/
def append (s : SDB) (e : Entry) : SDB :=
  { s with
    journal := e :: s.journal
    dirties := match e.dirtied with
      | some a => bump a s.dirties
      | none => s.dirties }

/-- `createObject` (statedb.go 284-299): the state and the previous object. -/
def createObject (s : SDB) (a : Addr) : SDB × Option Obj :=
  let prev := s.lookup H K a
  let s := s.load H K a
  let s := match prev with
    | none => s.append (.create a)
    | some p => s.append (.reset a p)
  (s.put a (newObj H), prev)

/-- `getOrNewStateObject` (statedb.go 274-280): the state and the object. -/
def getOrNew (s : SDB) (a : Addr) : SDB × Obj :=
  match s.lookup H K a with
  | some o => (s.load H K a, o)
  | none => ((s.createObject H K a).1, newObj H)

end SDB

/-- The value `Code` returns (state_object.go 151-165). -/
def Obj.codeVal (K : Store) (o : Obj) : Option Bytes :=
  match o.code with
  | some c => some c
  | none => if o.codeHash = H [] then none else K.code o.codeHash

/-- The object after `Code`: a loaded code is kept (state_object.go 161-162). -/
def Obj.loadCode (K : Store) (o : Obj) : Obj :=
  match o.code with
  | some _ => o
  | none => if o.codeHash = H [] then o else { o with code := K.code o.codeHash }

/-- `setCode` (state_object.go 183-187). -/
def Obj.setCode (o : Obj) (h : Hash) (c : Option Bytes) : Obj := { o with code := c, codeHash := h, dirtyCode := true }

/-- The value `GetCommittedState` returns (state_object.go 218-226). -/
def Obj.committed (K : Store) (a : Addr) (o : Obj) (k : Key) : Word := (o.origin k).getD (K.state a k)

/-- The object after `GetCommittedState` (state_object.go 224). -/
def Obj.loadState (K : Store) (a : Addr) (o : Obj) (k : Key) : Obj :=
  match o.origin k with
  | some _ => o
  | none => { o with origin := upd o.origin k (some (K.state a k)) }

/-- The value `GetState` returns (state_object.go 229-234). -/
def Obj.stateVal (K : Store) (a : Addr) (o : Obj) (k : Key) : Word := (o.dirty k).getD (o.committed K a k)

/-- The object after `GetState`: only a slot that is not dirty is loaded (state_object.go 230-233). -/
def Obj.touchState (K : Store) (a : Addr) (o : Obj) (k : Key) : Obj :=
  match o.dirty k with
  | some _ => o
  | none => o.loadState K a k

/-- `setState` (state_object.go 252-254). -/
def Obj.setState (o : Obj) (k : Key) (w : Word) : Obj := { o with dirty := upd o.dirty k (some w) }

/-- `empty` (state_object.go 88-92). -/
def Obj.isEmpty (o : Obj) : Bool := o.nonce == 0 && o.balance == 0 && o.codeHash == H []

/-- What can be asked of and done to the state (statedb.go 126-503). -/
inductive Op where
  | exist (a : Addr)
  | empty (a : Addr)
  | getBalance (a : Addr)
  | getNonce (a : Addr)
  | getCode (a : Addr)
  | getCodeHash (a : Addr)
  | getState (a : Addr) (k : Key)
  | getCommittedState (a : Addr) (k : Key)
  | hasSuicided (a : Addr)
  | getRefund
  | getLogs
  | addressInAccessList (a : Addr)
  | slotInAccessList (a : Addr) (k : Key)
  | createAccount (a : Addr)
  | addBalance (a : Addr) (n : Nat)
  | subBalance (a : Addr) (n : Nat)
  | setNonce (a : Addr) (n : Nat)
  | setCode (a : Addr) (c : Bytes)
  | setState (a : Addr) (k : Key) (w : Word)
  | suicide (a : Addr)
  | addLog (d : Nat)
  | addRefund (g : Nat)
  | subRefund (g : Nat)
  | addAddress (a : Addr)
  | addSlot (a : Addr) (k : Key)
  | snapshot
  | revert (id : Nat)

/-- What an operation returns. -/
inductive Out where
  | done
  | bool (b : Bool)
  | bools (b c : Bool)
  | int (i : Int)
  | nat (n : Nat)
  | bytes (b : Bytes)
  | logs (l : List Log)
deriving DecidableEq

namespace SDB
variable (K : Store)

/-- The `Revert` methods of the journal entries (journal.go 180-275); `none` is a nil dereference or a panic. -/
def undo (s : SDB) : Entry → Option SDB
  | .create a => some { s with objs := upd s.objs a none }
  | .reset a p => some (s.put a p)
  | .suicide a f b =>
    match s.lookup H K a with
    | none => some s
    | some o => some (s.put a { o with suicided := f, balance := b })
  | .balance a b => (s.lookup H K a).map fun o => s.put a { o with balance := b }
  | .nonce a n => (s.lookup H K a).map fun o => s.put a { o with nonce := n }
  | .code a c h => (s.lookup H K a).map fun o => s.put a (o.setCode h c)
  | .storage a k w => (s.lookup H K a).map fun o => s.put a (o.setState k w)
  | .refund p => some { s with refund := p }
  | .addLog => some { s with logs := s.logs.dropLast }
  | .alAddr a => some { s with al := s.al.deleteAddress a }
  | .alSlot a k => (s.al.deleteSlot a k).map fun al => { s with al }

/-- `journal.Revert` (journal.go 77-90), for the newest `n` entries. -/
def undoN (s : SDB) : Nat → Option SDB
  | 0 => some s
  | n + 1 =>
    match s.journal with
    | [] => some s
    | e :: j =>
      (s.undo H K e).bind fun s =>
        undoN { s with
          journal := j
          dirties := match e.dirtied with
            | some a => unbump a s.dirties
            | none => s.dirties } n

/-- `RevertToSnapshot` (statedb.go 490-503).  `sort.Search` finds the first revision whose id is not smaller. -/
def revertTo (s : SDB) (id : Nat) : Option SDB :=
  let idx := s.revs.findIdx fun r => r.1 ≥ id
  match s.revs[idx]? with
  | none => none
  | some r =>
    if r.1 ≠ id then none
    else (s.undoN H K (s.journal.length - r.2)).map fun t => { t with revs := s.revs.take idx }

/-- One operation. -/
def step (s : SDB) : Op → Option (SDB × Out)
  | .exist a => some (s.load H K a, .bool (s.lookup H K a).isSome)
  | .empty a => some (s.load H K a, .bool (match s.lookup H K a with | none => true | some o => o.isEmpty H))
  | .getBalance a => some (s.load H K a, .int (match s.lookup H K a with | none => 0 | some o => o.balance))
  | .getNonce a => some (s.load H K a, .nat (match s.lookup H K a with | none => 0 | some o => o.nonce))
  | .getCode a =>
    match s.lookup H K a with
    | none => some (s.load H K a, .bytes [])
    | some o => some (s.put a (o.loadCode H K), .bytes ((o.codeVal H K).getD []))
  | .getCodeHash a => some (s.load H K a, .nat (match s.lookup H K a with | none => 0 | some o => o.codeHash))
  | .getState a k =>
    match s.lookup H K a with
    | none => some (s.load H K a, .nat 0)
    | some o => some (s.put a (o.touchState K a k), .nat (o.stateVal K a k))
  | .getCommittedState a k =>
    match s.lookup H K a with
    | none => some (s.load H K a, .nat 0)
    | some o => some (s.put a (o.loadState K a k), .nat (o.committed K a k))
  | .hasSuicided a => some (s.load H K a, .bool (match s.lookup H K a with | none => false | some o => o.suicided))
  | .getRefund => some (s, .nat s.refund)
  | .getLogs => some (s, .logs s.logs)
  | .addressInAccessList a => some (s, .bool (s.al.containsAddress a))
  | .slotInAccessList a k => some (s, .bools (s.al.contains a k).1 (s.al.contains a k).2)
  | .createAccount a =>
    match s.createObject H K a with
    | (s, none) => some (s, .done)
    | (s, some p) => some (s.put a { newObj H with balance := p.balance }, .done)
  | .addBalance a n =>
    let (s, o) := s.getOrNew H K a
    if n = 0 then some (s, .done)
    else some ((s.append (.balance a o.balance)).put a { o with balance := o.balance + n }, .done)
  | .subBalance a n =>
    let (s, o) := s.getOrNew H K a
    if n = 0 then some (s, .done)
    else some ((s.append (.balance a o.balance)).put a { o with balance := o.balance - n }, .done)
  | .setNonce a n =>
    let (s, o) := s.getOrNew H K a
    some ((s.append (.nonce a o.nonce)).put a { o with nonce := n }, .done)
  | .setCode a c =>
    let (s, o) := s.getOrNew H K a
    some ((s.append (.code a (o.codeVal H K) o.codeHash)).put a ((o.loadCode H K).setCode (H c) (some c)), .done)
  | .setState a k w =>
    let (s, o) := s.getOrNew H K a
    if o.stateVal K a k = w then some (s.put a (o.touchState K a k), .done)
    else some ((s.append (.storage a k (o.stateVal K a k))).put a ((o.touchState K a k).setState k w), .done)
  | .suicide a =>
    match s.lookup H K a with
    | none => some (s.load H K a, .bool false)
    | some o => some ((s.append (.suicide a o.suicided o.balance)).put a { o with suicided := true, balance := 0 }, .bool true)
  | .addLog d => some ({ (s.append .addLog) with logs := s.logs ++ [⟨d, s.logIndex + s.logs.length⟩] }, .done)
  | .addRefund g => some ({ (s.append (.refund s.refund)) with refund := (s.refund + g) % 2 ^ 64 }, .done)
  | .subRefund g => if g > s.refund then none else some ({ (s.append (.refund s.refund)) with refund := s.refund - g }, .done)
  | .addAddress a =>
    match s.al.addAddress a with
    | (al, true) => some ({ (s.append (.alAddr a)) with al }, .done)
    | (al, false) => some ({ s with al }, .done)
  | .addSlot a k =>
    let (al, addrMod, slotMod) := s.al.addSlot a k
    let s := if addrMod then s.append (.alAddr a) else s
    let s := if slotMod then s.append (.alSlot a k) else s
    some ({ s with al }, .done)
  | .snapshot => some ({ s with nextRev := s.nextRev + 1, revs := s.revs ++ [(s.nextRev, s.journal.length)] }, .nat s.nextRev)
  | .revert id => (s.revertTo H K id).map fun s => (s, .done)

/-- A sequence of operations and what they return. -/
def run (s : SDB) : List Op → Option (SDB × List Out)
  | [] => some (s, [])
  | op :: ops => (s.step H K op).bind fun (s, o) => (run s ops).map fun (s, os) => (s, o :: os)

end SDB

namespace Store

/-- `DeleteAccount` (keeper/statedb.go 247-283); `none` is the error for accounts without code hash. -/
def deleteAccount (K : Store) (a : Addr) : Option Store :=
  match K.seq a with
  | none => some K
  | some _ =>
    match K.codeHash a with
    | none => none
    | some _ => some { K with
        bal := upd K.bal a 0
        state := upd K.state a (fun _ => 0)
        codeHash := upd K.codeHash a none
        seq := upd K.seq a none }

/-- `SetAccount` and `SetBalance` (keeper/statedb.go 110-165); burning more than there is fails, the bank accepts everything
else. -/
def setAccount (K : Store) (a : Addr) (o : Obj) : Option Store :=
  if o.balance < 0 then none
  else some { K with
    seq := upd K.seq a (some o.nonce)
    codeHash := upd K.codeHash a (if o.codeHash = H [] then none else some o.codeHash)
    bal := upd K.bal a o.balance.toNat }

/-- The code part of the commit (statedb.go 533-539). -/
def writeCode (K : Store) (o : Obj) : Store :=
  match o.code, o.dirtyCode with
  | some c, true => { K with code := upd K.code o.codeHash (if c = [] then none else some c) }
  | _, _ => K

/-- The storage part of the commit (statedb.go 544-551): all dirty slots at once (`Hash.Bytes` has always 32 bytes, so
`DeleteState` is never called). -/
def writeState (K : Store) (a : Addr) (o : Obj) : Store :=
  { K with state := upd K.state a (fun k => (o.dirty k).getD (K.state a k)) }

/-- The body of the commit loop (statedb.go 526-552). -/
def commitObj (K : Store) (a : Addr) (o : Obj) : Option Store :=
  if o.suicided then K.deleteAccount a
  else ((K.writeCode o).setAccount H a o).map fun K => K.writeState a o

end Store

/-- `sortedDirties` (journal.go 56-65). -/
def SDB.sortedDirties (s : SDB) : List Addr := StableSort.sortBy (fun a b => decide (a ≤ b)) (s.dirties.map (·.1))

/-- `commitWithCtx` (statedb.go 525-555) into the store `T`; `none` is an error (or a nil dereference). -/
def SDB.commit (s : SDB) (T : Store) : Option Store :=
  s.sortedDirties.foldlM (fun T a => (s.objs a).bind fun o => T.commitObj H a o) T

end
end EVM
