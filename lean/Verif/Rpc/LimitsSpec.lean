import Verif.Rpc.Limits
/-!
# Specification for limits on requests

Everything is said by what happened, the latest event first.
-/
namespace Rpc.Limits

/-- What happened since the tables were last emptied. -/
def since : List Event → List Event
  | [] => []
  | e :: l => if e = .emptied then [] else e :: since l

def passTime (k : Text) : Event → Option Nat
  | .passed t k' => if k' = k then some t else none
  | _ => none

def countTime (m k : Text) : Event → Option Nat
  | .counted t m' k' => if m' = m ∧ k' = k then some t else none
  | _ => none

def doneTime (k : Text) : Event → Option (Nat × Nat)
  | .done t d k' => if k' = k then some (t, d) else none
  | _ => none

/-- When requests of client `k` passed. -/
def passes (evs : List Event) (k : Text) : List Nat := (since evs).filterMap (passTime k)

/-- When requests of client `k` for method `m` were let through. -/
def counts (evs : List Event) (m k : Text) : List Nat := (since evs).filterMap (countTime m k)

/-- When the server was done with calls of client `k`, and how long they took. -/
def works (evs : List Event) (k : Text) : List (Nat × Nat) := (since evs).filterMap (doneTime k)

/-- How many of some times lie in the window that ends at `t`: after `t - window`, up to `t`. -/
def within (window t : Nat) (l : List Nat) : Nat := (l.filter (fun x => decide (x ≤ t ∧ t < x + window))).length

/-- The time spent on client `k` in the window that ends at `t`. -/
def timeSpent (window t : Nat) (evs : List Event) (k : Text) : Nat :=
  ((works evs k).map (fun e => if t < e.1 + window then e.2 else 0)).sum

/-- The text `u` occurs in `k`. -/
def Has (k u : Text) : Prop := ∃ a b, k = a ++ u ++ b

/-- The bytes of "192.168.1.1" or of "127.0.0.1" occur in the text. -/
def Exempt (k : Text) : Prop := Has k "192.168.1.1".toUTF8.data.toList ∨ Has k "127.0.0.1".toUTF8.data.toList

/-- The time of a step. -/
def opTime : Op → Option Nat
  | .advance _ now _ => some now
  | .finish _ now _ => some now
  | _ => none

/-- Time does not run backwards. -/
def Clocked (ops : List Op) : Prop := (ops.filterMap opTime).Pairwise (· ≤ ·)

/-- The limit of a method. -/
def limitOf (c : Conf) (m : Text) : Nat := (KV.get c.own m).getD c.limit

/-- Each client has one request at a time. -/
def OneAtATime (c : Conf) (ops : List Op) : Prop :=
  ∀ pre id r post, ops = pre ++ .arrive id r :: post → ∀ x ∈ (run c pre).1.reqs, clientIP x.2.1 ≠ clientIP r

end Rpc.Limits
