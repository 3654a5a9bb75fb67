import Verif.Hyperion.History
/-!
# History of bridge transfers: what is claimed
-/
namespace History

/-- The finished transfers of an account: those it sent or received, oldest first. -/
def historyOf (l : List Rec) (a : Nat) : List Rec := l.filter (fun r => decide (r.sender = a ∨ r.dest = a))

/-- Of what was stored, what was stored on the same side of height 34800 as `height`. -/
def sameSide (log : List (Nat × Rec)) (height : Nat) : List Rec :=
  (log.filter (fun e => decide (34800 < e.1 ↔ 34800 < height))).map (·.2)

/-- All transfers of an account, in the order they are to be shown in: under way first, then finished ones, newest first. -/
def everything (u : UnderWay) (done : List Rec) (a : Nat) : List Rec :=
  u.unbatched ++ u.batched ++ u.deposits ++ (historyOf done a).reverse

/-- Page `page` of a list cut into pages of `size`. Pages count from 1. -/
def pageOf (l : List Rec) (page size : Nat) : List Rec := (l.drop ((page - 1) * size)).take size

/-- The last `n` of a list. -/
def lastOf (n : Nat) (l : List Rec) : List Rec := l.drop (l.length - n)

end History
