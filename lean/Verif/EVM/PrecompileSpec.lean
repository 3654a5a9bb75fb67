import Verif.EVM.Precompile

/-!
# Specification of calls of precompiled contracts

The state of a transaction is one value: accounts, balances, storage and the other modules. Operations change it, a snapshot remembers it, a revert brings it back,
and what is stored at the end of the transaction is that value. A call of a precompiled contract that succeeds does what its handler does; one that fails does nothing.
-/
namespace PC

variable {X : Type}

/-- The value of the state, and the values remembered by snapshots. -/
structure Spec (X : Type) where
  cur : Full X
  saved : List (Nat × Full X) := []
  next : Nat := 0

/-- Coins move and the account exists. -/
def Full.add (v : Full X) (a : Addr) (n : Int) : Full X := { v with exist := upd v.exist a true, bal := upd v.bal a (v.bal a + n) }

/-- A slot changes and the account exists. -/
def Full.store (v : Full X) (a : Addr) (k : Key) (w : Word) : Full X :=
  { v with exist := upd v.exist a true, state := upd v.state a (upd (v.state a) k w) }

/-- A successful call: the handler's changes of balances and its changes of other modules; the contract and the accounts it names exist. -/
def Full.called (v : Full X) (c : Call X) : Full X :=
  let r := c.handler v.bal v.rest
  { v with
    exist := fun a => v.exist a || r.report.any (fun e => e.1 == a) || decide (a = c.addr)
    bal := fun a => v.bal a + SDB.net r.delta a
    rest := r.rest }

/-- One operation; `ok` says whether a call succeeds. -/
def Spec.step (σ : Spec X) (op : Op X) (ok : Bool) : Option (Spec X × Out) :=
  match op with
  | .exist a => some (σ, .bool (σ.cur.exist a))
  | .getBalance a => some (σ, .int (σ.cur.bal a))
  | .getState a k => some (σ, .nat (if σ.cur.exist a then σ.cur.state a k else 0))
  | .addBalance a n => some ({ σ with cur := σ.cur.add a n }, .done)
  | .setState a k w => some ({ σ with cur := σ.cur.store a k w }, .done)
  | .snapshot => some ({ σ with saved := σ.saved ++ [(σ.next, σ.cur)], next := σ.next + 1 }, .nat σ.next)
  | .revert id => (σ.saved.find? (fun e => e.1 == id)).map fun e => ({ σ with cur := e.2, saved := σ.saved.filter (fun q => q.1 < id) }, .done)
  | .call c => some (if ok then { σ with cur := σ.cur.called c } else σ, .bool ok)

/-- A sequence of operations; `outs` tells which calls succeed. -/
def Spec.run (σ : Spec X) : List (Op X) → List Out → Option (Spec X × List Out)
  | op :: ops, o :: outs => (σ.step op (decide (o = .bool true))).bind fun (σ, o) => (run σ ops outs).map fun (σ, os) => (σ, o :: os)
  | [], [] => some (σ, [])
  | _, _ => none

/-- A contract that keeps to the rules: it does not commit the state in the middle of the transaction, and it reports the changes of balances it makes. -/
def Call.Honest (c : Call X) : Prop := c.commits = false ∧ ∀ b x a, SDB.net (c.handler b x).report a = SDB.net (c.handler b x).delta a

/-- Every call is a call of an honest contract, and succeeded. -/
def Fine : List (Op X) → List Out → Prop
  | .call c :: ops, o :: outs => c.Honest ∧ o = .bool true ∧ Fine ops outs
  | _ :: ops, _ :: outs => Fine ops outs
  | _, _ => True

/-- Operations that do not go back beyond snapshot `i`. -/
def Within (i : Nat) (ops : List (Op X)) : Prop := ∀ op ∈ ops, ∀ j, op = .revert j → i < j

/-- The coins of the accounts in `A` and those held by other modules. -/
def Full.total (A : List Addr) (held : X → Int) (v : Full X) : Int := (A.map v.bal).sum + held v.rest

/-- What a transaction does: an operation, or a transfer of coins from one account to another (core/evm.go 137-140). -/
inductive Act (X : Type) where
  | op (o : Op X)
  | transfer (a b : Addr) (n : Int)

def Act.ops : Act X → List (Op X)
  | .op o => [o]
  | .transfer a b n => [.addBalance a (-n), .addBalance b n]

/-- Coins are only moved: by transfers among the accounts in `A`, and by handlers that take from accounts what they give to modules. -/
def Act.Balanced (A : List Addr) (held : X → Int) : Act X → Prop
  | .op (.addBalance _ _) => False
  | .op (.call c) => ∀ b x, (A.map (SDB.net (c.handler b x).delta)).sum + held (c.handler b x).rest = held x
  | .op _ => True
  | .transfer a b _ => a ∈ A ∧ b ∈ A

end PC
