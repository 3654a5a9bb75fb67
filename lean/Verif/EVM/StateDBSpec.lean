import Verif.EVM.StateDB
/-!
# EVM state: specification

What the caller of the state should see, without journal, caches or dirty flags: a current picture of the world (`View`), and a
list of pictures saved by `snapshot`; `revert` puts a saved picture back.
-/
namespace EVM

/-- An account as seen through the getters. -/
structure Acct where
  nonce : Nat
  balance : Int
  codeHash : Hash
  code : Bytes
  storage : Key → Word
  suicided : Bool

/-- Everything observable, plus which accounts were changed (`touched`), and which existing accounts were replaced by
`createAccount` (`recreated`), by operations that were not reverted. -/
structure View where
  accts : Addr → Option Acct
  refund : Nat
  logs : List Log
  warm : Addr → Bool
  warmSlot : Addr → Key → Bool
  touched : Addr → Bool
  recreated : Addr → Bool

/-- The specification's state: current picture, saved pictures (oldest first), next identifier. -/
structure Spec where
  cur : View
  saved : List (Nat × View)
  next : Nat

section
variable (H : Bytes → Hash)

/-- The accounts in a store. -/
def Store.acct (K : Store) (a : Addr) : Option Acct :=
  (K.seq a).map fun n =>
    let h := (K.codeHash a).getD (H [])
    { nonce := n, balance := K.bal a, codeHash := h, code := if h = H [] then [] else (K.code h).getD [],
      storage := K.state a, suicided := false }

/-- The picture at the start of a transaction. -/
def Store.view (K : Store) : View :=
  { accts := K.acct H, refund := 0, logs := [], warm := fun _ => false, warmSlot := fun _ _ => false,
    touched := fun _ => false, recreated := fun _ => false }

/-- A new account: nothing in it, except that slots stored earlier under this address show through. -/
def freshAcct (K : Store) (a : Addr) : Acct :=
  { nonce := 0, balance := 0, codeHash := H [], code := [], storage := K.state a, suicided := false }

namespace View

/-- Replace an account and mark it as touched. -/
def set (v : View) (a : Addr) (ac : Acct) : View :=
  { v with accts := upd v.accts a (some ac), touched := upd v.touched a true }

/-- The account, or a new one (which counts as touched). -/
def orNew (K : Store) (v : View) (a : Addr) : View × Acct :=
  match v.accts a with
  | some ac => (v, ac)
  | none => (v.set a (freshAcct H K a), freshAcct H K a)

/-- What each operation except `snapshot` and `revert` does and returns; `K` is the store at the start of the transaction, `li`
the number of logs in the block before. -/
def step (K : Store) (li : Nat) (v : View) : Op → Option (View × Out)
  | .exist a => some (v, .bool (v.accts a).isSome)
  | .empty a => some (v, .bool (match v.accts a with
      | none => true
      | some ac => ac.nonce == 0 && ac.balance == 0 && ac.codeHash == H []))
  | .getBalance a => some (v, .int (match v.accts a with | none => 0 | some ac => ac.balance))
  | .getNonce a => some (v, .nat (match v.accts a with | none => 0 | some ac => ac.nonce))
  | .getCode a => some (v, .bytes (match v.accts a with | none => [] | some ac => ac.code))
  | .getCodeHash a => some (v, .nat (match v.accts a with | none => 0 | some ac => ac.codeHash))
  | .getState a k => some (v, .nat (match v.accts a with | none => 0 | some ac => ac.storage k))
  | .getCommittedState a k => some (v, .nat (match v.accts a with | none => 0 | some _ => K.state a k))
  | .hasSuicided a => some (v, .bool (match v.accts a with | none => false | some ac => ac.suicided))
  | .getRefund => some (v, .nat v.refund)
  | .getLogs => some (v, .logs v.logs)
  | .addressInAccessList a => some (v, .bool (v.warm a))
  | .slotInAccessList a k => some (v, .bools (v.warm a) (v.warmSlot a k))
  | .createAccount a =>
    match v.accts a with
    | none => some (v.set a (freshAcct H K a), .done)
    | some ac => some ({ v with
        accts := upd v.accts a (some { freshAcct H K a with balance := ac.balance })
        recreated := upd v.recreated a true }, .done)
  | .addBalance a n =>
    let (v, ac) := v.orNew H K a
    if n = 0 then some (v, .done) else some (v.set a { ac with balance := ac.balance + n }, .done)
  | .subBalance a n =>
    let (v, ac) := v.orNew H K a
    if n = 0 then some (v, .done) else some (v.set a { ac with balance := ac.balance - n }, .done)
  | .setNonce a n => let (v, ac) := v.orNew H K a; some (v.set a { ac with nonce := n }, .done)
  | .setCode a c => let (v, ac) := v.orNew H K a; some (v.set a { ac with codeHash := H c, code := c }, .done)
  | .setState a k w =>
    let (v, ac) := v.orNew H K a
    if ac.storage k = w then some (v, .done) else some (v.set a { ac with storage := upd ac.storage k w }, .done)
  | .suicide a =>
    match v.accts a with
    | none => some (v, .bool false)
    | some ac => some (v.set a { ac with suicided := true, balance := 0 }, .bool true)
  | .addLog d => some ({ v with logs := v.logs ++ [⟨d, li + v.logs.length⟩] }, .done)
  | .addRefund g => some ({ v with refund := (v.refund + g) % 2 ^ 64 }, .done)
  | .subRefund g => if g > v.refund then none else some ({ v with refund := v.refund - g }, .done)
  | .addAddress a => some ({ v with warm := upd v.warm a true }, .done)
  | .addSlot a k => some ({ v with warm := upd v.warm a true, warmSlot := upd v.warmSlot a (upd (v.warmSlot a) k true) }, .done)
  | .snapshot => none
  | .revert _ => none

/-- What a committed transaction leaves: self-destructed accounts are gone. -/
def settled (v : View) (a : Addr) : Option Acct := (v.accts a).bind fun ac => if ac.suicided then none else some ac

end View

/-- One operation of the specification. -/
def Spec.step (K : Store) (li : Nat) (σ : Spec) : Op → Option (Spec × Out)
  | .snapshot => some ({ σ with saved := σ.saved ++ [(σ.next, σ.cur)], next := σ.next + 1 }, .nat σ.next)
  | .revert id =>
    match σ.saved.find? (fun p => p.1 == id) with
    | none => none
    | some (_, v) => some ({ σ with cur := v, saved := σ.saved.filter (fun p => p.1 < id) }, .done)
  | op => (σ.cur.step H K li op).map fun (v, o) => ({ σ with cur := v }, o)

/-- A sequence of operations. -/
def Spec.run (K : Store) (li : Nat) (σ : Spec) : List Op → Option (Spec × List Out)
  | [] => some (σ, [])
  | op :: ops => (σ.step H K li op).bind fun (σ, o) => (run K li σ ops).map fun (σ, os) => (σ, o :: os)

/-- A store as earlier transactions leave it: codes are not empty and are filed under their hash, accounts point to codes that
are there; `S` is the set of codes in play (stored, or set by the operations, and the empty one), on which the hash has no
collision. -/
structure WF (K : Store) (S : Bytes → Prop) : Prop where
  code : ∀ h c, K.code h = some c → c ≠ [] ∧ H c = h ∧ S c
  hash : ∀ a h, K.codeHash a = some h → ∃ c, K.code h = some c
  nil : S []
  inj : ∀ c d, S c → S d → H c = H d → c = d

/-- The specification at the start of a transaction. -/
def Spec.init (K : Store) : Spec := { cur := K.view H, saved := [], next := 0 }

end

/-- The codes an operation brings in are in `S`. -/
def Op.codeIn (S : Bytes → Prop) : Op → Prop
  | .setCode _ c => S c
  | _ => True

/-- Neither `snapshot` nor `revert`. -/
def Op.plain : Op → Prop
  | .snapshot => False
  | .revert _ => False
  | _ => True

/-! ### Which operations count

The same story told with operations instead of pictures: `revert` throws away the operations done since the snapshot. -/

/-- Operations that were not reverted (oldest first), and what they were when each open snapshot was taken. -/
structure Hist where
  ops : List Op := []
  saved : List (Nat × List Op) := []
  next : Nat := 0

/-- One more operation. -/
def Hist.step (h : Hist) : Op → Hist
  | .snapshot => { h with saved := h.saved ++ [(h.next, h.ops)], next := h.next + 1 }
  | .revert id =>
    match h.saved.find? (fun p => p.1 == id) with
    | none => h
    | some (_, l) => { h with ops := l, saved := h.saved.filter (fun p => p.1 < id) }
  | op => { h with ops := h.ops ++ [op] }

/-- The history after a sequence of operations. -/
def history (ops : List Op) : Hist := ops.foldl Hist.step {}

/-- The operations that were not reverted. -/
def survivors (ops : List Op) : List Op := (history ops).ops

/-- The snapshots that can still be reverted to. -/
def openIds (ops : List Op) : List Nat := (history ops).saved.map (·.1)

/-- How many snapshots were taken. -/
def snapshots (ops : List Op) : Nat := ops.countP (fun op => match op with | .snapshot => true | _ => false)

/-- Sum of the gas added to the refund counter. -/
def added : List Op → Nat
  | [] => 0
  | .addRefund g :: l => g + added l
  | _ :: l => added l

/-- Sum of the gas taken from the refund counter. -/
def subtracted : List Op → Nat
  | [] => 0
  | .subRefund g :: l => g + subtracted l
  | _ :: l => subtracted l

end EVM
