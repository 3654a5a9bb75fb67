/-!
# Talking to hardware wallets

The driver of Ledger devices (wallets/usbwallet/ledger.go): a command with its data is put into packets of at most
64 bytes, the answer comes in packets of 64 bytes.

Bytes are natural numbers. The device is a stream of packets; reads across borders of packets, time-outs and the
devices' own errors of transport are not modelled.
-/

namespace Ledger

/-- The low byte of a number: Go's `byte(x)`. -/
def low (x : Nat) : Nat := x % 256

/-- `binary.BigEndian.PutUint16` of `uint16(x)`. -/
def put16 (x : Nat) : List Nat := [low (x / 256), low x]

/-- `binary.BigEndian.PutUint32` of a component of a path. -/
def put32 (x : Nat) : List Nat := [low (x / 16777216), low (x / 65536), low (x / 256), low x]

/-- A derivation path as the device wants it (ledger.go 211-215, 297-301): the number of its components and each in
four bytes. -/
def flatten (path : List Nat) : List Nat := low path.length :: path.flatMap put32

/-- A command (ledger.go 368-373): its length, 0xe0, the code, two parameters, the length of the data and the data. -/
def apdu (op p1 p2 : Nat) (data : List Nat) : List Nat :=
  put16 (5 + data.length) ++ [224, low op, low p1, low p2, low data.length] ++ data

/-- The header of packet `i` (ledger.go 376, 384). -/
def header (i : Nat) : List Nat := [1, 1, 5] ++ put16 i

/-- The loop that sends (ledger.go 380-397); the fuel is the number of bytes. -/
def packets : Nat → Nat → List Nat → List (List Nat)
  | 0, _, _ => []
  | fuel + 1, i, bytes =>
    if bytes = [] then []
    else if 59 < bytes.length then (header i ++ bytes.take 59) :: packets fuel (i + 1) (bytes.drop 59)
    else [header i ++ bytes]

/-- Everything sent for a command (ledger.go 366-397). -/
def send (op p1 p2 : Nat) (data : List Nat) : List (List Nat) :=
  packets (apdu op p1 p2 data).length 0 (apdu op p1 p2 data)

/-- What reading an answer gives: its bytes and the packets left, an error, or a panic (a slice out of range). -/
inductive Reply where
  | ok (bytes : List Nat) (rest : List (List Nat))
  | fails
  | panics
  deriving DecidableEq

/-- The last two bytes are cut off (ledger.go 429); the status they hold is not looked at. -/
def finish (reply : List Nat) (rest : List (List Nat)) : Reply :=
  if reply.length < 2 then .panics else .ok (reply.take (reply.length - 2)) rest

/-- The loop that reads (ledger.go 400-428): `cap` is the capacity of the reply. -/
def readLoop : List (List Nat) → Nat → List Nat → Reply
  | [], _, _ => .fails
  | p :: ps, cap, reply =>
    if p.length ≠ 64 then .fails
    else if p.take 3 ≠ [1, 1, 5] then .fails
    else
      let first := p.getD 3 0 = 0 ∧ p.getD 4 0 = 0
      let cap' := if first then p.getD 5 0 * 256 + p.getD 6 0 else cap
      let reply' := if first then [] else reply
      let payload := if first then p.drop 7 else p.drop 5
      let left := cap' - reply'.length
      if payload.length < left then readLoop ps cap' (reply' ++ payload)
      else finish (reply' ++ payload.take left) ps

/-- Reading an answer (ledger.go 398-429). -/
def receive (ps : List (List Nat)) : Reply := readLoop ps 0 []

/-- The signature in an answer (ledger.go 327-336): 65 bytes, the first moved to the end. -/
def signature (reply : List Nat) : Option (List Nat) :=
  match reply with
  | [] => none
  | v :: rs => if (v :: rs).length = 65 then some (rs ++ [v]) else none

/-- The payload of a request to sign typed data (ledger.go 303-306). -/
def typedPayload (path domain message : List Nat) : List Nat := flatten path ++ domain ++ message

end Ledger
