import Verif.Rpc.Cache
/-!
# Specification for the cache of answers

Everything is said by what happened, the latest event first.
-/
namespace Rpc.Cache

/-- The last answer the method gave to a question, and when it was done. -/
def lastAnswer (k : Text) : List Event → Option (Nat × Nat)
  | [] => none
  | .fetched _ k' _ t (.ok v) :: l => if k' = k then some (t, v) else lastAnswer k l
  | _ :: l => lastAnswer k l

/-- The question whose kept answer an event uses or makes. -/
def used (c : Conf) : Event → Option Text
  | .hit _ k _ _ => some k
  | .fetched _ k _ _ (.ok _) => if (c.ttl k).isSome then some k else none
  | _ => none

/-- The other questions used since `k` was. -/
def others (c : Conf) (k : Text) (evs : List Event) : List Text := (evs.filterMap (used c)).takeWhile (fun j => decide (j ≠ k))

/-- What an event answers to a question, unless it failed. -/
def answerTo (k : Text) : Event → Option Nat
  | .hit _ k' _ v => if k' = k then some v else none
  | .fetched _ k' _ _ (.ok v) => if k' = k then some v else none
  | _ => none

/-- What was answered to a question, the latest first; failures are left out. -/
def answers (k : Text) (evs : List Event) : List Nat := evs.filterMap (answerTo k)

def opTime : Op → Option Nat
  | .ask _ _ now => some now
  | .back _ now _ => some now
  | .clean now => some now
  | .routine => none

/-- Time does not run backwards. -/
def Clocked (ops : List Op) : Prop := (ops.filterMap opTime).Pairwise (· ≤ ·)

/-- The method is never asked a question while it works on the same. -/
def Alone (c : Conf) (k : Text) (ops : List Op) : Prop :=
  ∀ pre id now post, ops = pre ++ .ask id k now :: post → ∀ x ∈ (run c pre).1.work, x.2.1 ≠ k

/-- Of two times the method worked on a question, one after the other, the second gave an answer that stands in the relation to the first, as when
the height of a chain is asked for. -/
def Grows (R : Nat → Nat → Prop) (k : Text) (evs : List Event) : Prop :=
  ∀ id b t v id' b' t' v', .fetched id k b t (.ok v) ∈ evs → .fetched id' k b' t' (.ok v') ∈ evs → t ≤ b' → R v v'

/-- The answers of the method come from a chain whose height never falls, each read while the method worked. -/
def FromHeights (height : Nat → Nat) (evs : List Event) : Prop :=
  (∀ i j, i ≤ j → height i ≤ height j) ∧ ∀ id k b t v, .fetched id k b t (.ok v) ∈ evs → ∃ i, b ≤ i ∧ i ≤ t ∧ v = height i

/-- The kind of an argument, which the signature of a method fixes; addresses have twenty bytes. -/
inductive Kind where
  | hex
  | num
  | str
  | addr
deriving DecidableEq

def IsKind : Kind → Arg → Prop
  | .hex, .hex _ => True
  | .num, .num _ => True
  | .str, .str _ => True
  | .addr, .addr a => a.length = 20
  | _, _ => False

/-- Arguments for a signature. -/
def Fits (sig : List Kind) (args : List Arg) : Prop := args.length = sig.length ∧ ∀ x ∈ sig.zip args, IsKind x.1 x.2

end Rpc.Cache
