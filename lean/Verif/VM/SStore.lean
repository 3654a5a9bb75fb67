import Verif.VM.Gas
/-!
# Metering of storage writes

Models `makeGasSStoreFunc` (helios-chain/x/evm/core/vm/operations_acl.go 27-97; EIP-2200, 2929 and 3529) and the part of the state it works on
(statedb.go 143-156: the refund counter). Costs are the ones of the London table; `clearing` is 4800 (EIP-3529) or 15000 (EIP-2929).
-/
namespace VM

/-- The charge of a write (operations_acl.go 44-97) of `value` to a slot whose value at the start of the transaction was `orig` and now is `cur`, given
the refund counter: the cost and the new counter. `none` is the panic of `SubRefund` (statedb.go 150-156). Simplified: the counter does not wrap. -/
def sstoreGas (clearing : Nat) (warm : Bool) (orig cur value : Word) (refund : Nat) : Option (Nat × Nat) :=
  let cold := if warm then 0 else 2100
  if cur = value then some (cold + 100, refund)
  else if orig = cur then
    if orig = 0#256 then some (cold + 20000, refund)
    else some (cold + (5000 - 2100), if value = 0#256 then refund + clearing else refund)
  else
    let r1 : Option Nat :=
      if orig = 0#256 then some refund
      else if cur = 0#256 then (if clearing > refund then none else some (refund - clearing))
      else if value = 0#256 then some (refund + clearing)
      else some refund
    match r1 with
    | none => none
    | some r1 =>
      if orig = value then
        if orig = 0#256 then some (cold + 100, r1 + (20000 - 100))
        else some (cold + 100, r1 + ((5000 - 2100) - 100))
      else some (cold + 100, r1)

/-- The storage as the metering sees it. Keys are pairs of an address and a slot. -/
structure Slots (κ : Type) where
  orig : κ → Word
  cur : κ → Word
  warm : κ → Bool
  refund : Nat

/-- Point update of a function. -/
def setAt {κ α : Type} [DecidableEq κ] (f : κ → α) (k : κ) (v : α) : κ → α := fun j => if j = k then v else f j

/-- A paid write: `SSTORE` with its gas function (operations_acl.go 27-97, instructions.go opSstore). The check of the sentry is left out here: it only
refuses more. -/
def sstore {κ : Type} [DecidableEq κ] (clearing : Nat) (s : Slots κ) (k : κ) (v : Word) : Option (Nat × Slots κ) :=
  match sstoreGas clearing (s.warm k) (s.orig k) (s.cur k) v s.refund with
  | none => none
  | some (cost, refund) => some (cost, { s with cur := setAt s.cur k v, warm := setAt s.warm k true, refund := refund })

/-- What happens to storage in a transaction: writes, reads (which only warm up), snapshots, and reverts to the last snapshot (statedb.go 481-512, value
semantics as proved for the journal). -/
inductive SAct (κ : Type) where
  | write (k : κ) (v : Word)
  | read (k : κ)
  | snapshot
  | keep
  | revert

/-- One action on the state and the saved states. `none` is a panic. -/
def sact {κ : Type} [DecidableEq κ] (clearing : Nat) (st : Slots κ × List (Slots κ)) : SAct κ → Option (Slots κ × List (Slots κ))
  | .write k v => match sstore clearing st.1 k v with
    | none => none
    | some (_, s) => some (s, st.2)
  | .read k => some ({ st.1 with warm := setAt st.1.warm k true }, st.2)
  | .snapshot => some (st.1, st.1 :: st.2)
  | .keep => some (st.1, st.2.tail)
  | .revert => match st.2 with
    | [] => some st
    | s :: rest => some (s, rest)

/-- A sequence of actions. -/
def sacts {κ : Type} [DecidableEq κ] (clearing : Nat) : Slots κ × List (Slots κ) → List (SAct κ) → Option (Slots κ × List (Slots κ))
  | st, [] => some st
  | st, a :: as => match sact clearing st a with
    | none => none
    | some st' => sacts clearing st' as

/-- A sequence of writes with their total cost. -/
def sstores {κ : Type} [DecidableEq κ] (clearing : Nat) : Slots κ → List (κ × Word) → Option (Nat × Slots κ)
  | s, [] => some (0, s)
  | s, (k, v) :: ws => match sstore clearing s k v with
    | none => none
    | some (cost, s') => match sstores clearing s' ws with
      | none => none
      | some (rest, s'') => some (cost + rest, s'')

end VM
