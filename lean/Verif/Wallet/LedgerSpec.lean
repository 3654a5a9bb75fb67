import Verif.Wallet.Ledger
/-!
# The protocol of hardware wallets, seen from the device

Packets begin with 1, 1, 5 and their number in two bytes. The bytes behind the headers, one after the other, are the
length of the message in two bytes and the message.
-/

namespace Ledger

/-- The device puts packets together: headers right, in order, none longer than 64 bytes. -/
def assemble : Nat → List (List Nat) → Option (List Nat)
  | _, [] => some []
  | i, p :: ps =>
    if p.take 5 = [1, 1, 5, i / 256 % 256, i % 256] ∧ p.length ≤ 64 then (assemble (i + 1) ps).map (p.drop 5 ++ ·)
    else none

/-- The message in the packets: its length comes first. -/
def message (ps : List (List Nat)) : Option (List Nat) :=
  match assemble 0 ps with
  | some (a :: b :: m) => if m.length = a * 256 + b then some m else none
  | _ => none

/-- A command as the device reads it: 0xe0, code, parameters, length of the data, data. -/
structure Command where
  op : Nat
  p1 : Nat
  p2 : Nat
  data : List Nat
  deriving DecidableEq

def command (m : List Nat) : Option Command :=
  match m with
  | 224 :: op :: p1 :: p2 :: n :: data => if data.length = n then some { op, p1, p2, data } else none
  | _ => none

/-- The device sends bytes in packets of 64 from number `i` on; the last is filled up with anything. -/
inductive Carries : Nat → List Nat → List (List Nat) → Prop where
  | last {i : Nat} {t pad : List Nat} : t.length + pad.length = 59 →
      Carries i t [[1, 1, 5, i / 256 % 256, i % 256] ++ (t ++ pad)]
  | more {i : Nat} {part t : List Nat} {ps : List (List Nat)} : part.length = 59 → t ≠ [] → Carries (i + 1) t ps →
      Carries i (part ++ t) (([1, 1, 5, i / 256 % 256, i % 256] ++ part) :: ps)

/-- The packets carry the answer: its length in two bytes, and itself. -/
def Answers (ans : List Nat) (ps : List (List Nat)) : Prop :=
  Carries 0 ([ans.length / 256, ans.length % 256] ++ ans) ps

/-- The path the device reads: the number of components, and four bytes for each. -/
def components : Nat → List Nat → Option (List Nat × List Nat)
  | 0, rest => some ([], rest)
  | n + 1, a :: b :: c :: d :: rest =>
    (components n rest).map fun r => ((a * 16777216 + b * 65536 + c * 256 + d) :: r.1, r.2)
  | _ + 1, _ => none

/-- A path and what follows it. -/
def readPath (m : List Nat) : Option (List Nat × List Nat) :=
  match m with
  | n :: rest => components n rest
  | [] => none

end Ledger
