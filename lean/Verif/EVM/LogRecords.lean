/-!
# Records of logs

Logs of contracts as they are kept and sent (x/evm/types/logs.go, types/validation.go), with hexadecimal texts for
addresses and hashes, and the conversions of go-ethereum's `common` package, which is not in the repository and is
modelled from knowledge of its source and of Go's `encoding/hex`.

Bytes and characters are natural numbers. Empty and missing lists are not distinguished. `uint` has 64 bits.
-/

namespace LogRecords

/-- A log as the virtual machine has it: an address of 20 bytes, hashes of 32. -/
structure EthLog where
  address : List Nat
  topics : List (List Nat)
  data : List Nat
  blockNumber : Nat
  txHash : List Nat
  txIndex : Nat
  blockHash : List Nat
  index : Nat
  removed : Bool
  deriving DecidableEq

/-- A log as it is kept: texts. -/
structure Log where
  address : List Nat
  topics : List (List Nat)
  data : List Nat
  blockNumber : Nat
  txHash : List Nat
  txIndex : Nat
  blockHash : List Nat
  index : Nat
  removed : Bool
  deriving DecidableEq

/-- Digits, small and large (`encoding/hex`). -/
def digit (n : Nat) : Nat := if n < 10 then 48 + n else 87 + n
def capital (n : Nat) : Nat := if n < 10 then 48 + n else 55 + n

/-- The value of a digit (`encoding/hex`, `isHexCharacter`). -/
def val (c : Nat) : Option Nat :=
  if 48 ≤ c ∧ c ≤ 57 then some (c - 48)
  else if 97 ≤ c ∧ c ≤ 102 then some (c - 87)
  else if 65 ≤ c ∧ c ≤ 70 then some (c - 55)
  else none

def nibbles (b : List Nat) : List Nat := b.flatMap fun x => [x / 16, x % 16]

/-- `Hash.String`: 0x and small digits. -/
def hashText (h : List Nat) : List Nat := 48 :: 120 :: (nibbles h).map digit

/-- Digits from position `i` on, some of them large. -/
def spell (up : Nat → Bool) : Nat → List Nat → List Nat
  | _, [] => []
  | i, n :: ns => (if up i then capital n else digit n) :: spell up (i + 1) ns

/-- `Address.String`: which letters are large depends on the hash of the address, here a parameter. -/
def addressText (up : List Nat → Nat → Bool) (a : List Nat) : List Nat := 48 :: 120 :: spell (up a) 0 (nibbles a)

/-- `has0xPrefix`, and what is behind it. -/
def strip : List Nat → List Nat
  | 48 :: 120 :: s => s
  | 48 :: 88 :: s => s
  | s => s

/-- `Hex2Bytes`: the error of `hex.DecodeString` is ignored, what was decoded before it is taken. -/
def decode : List Nat → List Nat
  | a :: b :: s =>
    match val a, val b with
    | some x, some y => (x * 16 + y) :: decode s
    | _, _ => []
  | _ => []

/-- `FromHex`. -/
def fromHex (s : List Nat) : List Nat :=
  if (strip s).length % 2 = 1 then decode (48 :: strip s) else decode (strip s)

/-- `BytesToHash`, `BytesToAddress`: too long is cut from the left, too short is filled there. -/
def fit (n : Nat) (b : List Nat) : List Nat :=
  if n < b.length then b.drop (b.length - n) else List.replicate (n - b.length) 0 ++ b

/-- `HexToHash` and `HexToAddress`. -/
def toHash (s : List Nat) : List Nat := fit 32 (fromHex s)
def toAddress (s : List Nat) : List Nat := fit 20 (fromHex s)

/-- `IsHexAddress`. -/
def isHexAddress (s : List Nat) : Bool := (strip s).length == 40 && (strip s).all fun c => (val c).isSome

/-- `IsEmptyHash` (types/validation.go 12-14). -/
def isEmptyHash (s : List Nat) : Bool := toHash s == List.replicate 32 0

/-- `NewLogFromEth` (logs.go 110-127). -/
def fromEth (up : List Nat → Nat → Bool) (l : EthLog) : Log :=
  { address := addressText up l.address, topics := l.topics.map hashText, data := l.data, blockNumber := l.blockNumber,
    txHash := hashText l.txHash, txIndex := l.txIndex, blockHash := hashText l.blockHash, index := l.index,
    removed := l.removed }

/-- `ToEthereum` (logs.go 72-89). -/
def toEth (l : Log) : EthLog :=
  { address := toAddress l.address, topics := l.topics.map toHash, data := l.data, blockNumber := l.blockNumber,
    txHash := toHash l.txHash, txIndex := l.txIndex, blockHash := toHash l.blockHash, index := l.index,
    removed := l.removed }

/-- `Log.Validate` (logs.go 55-69). -/
def validate (l : Log) : Bool :=
  if !isHexAddress l.address then false
  else if isEmptyHash l.blockHash then false
  else if l.blockNumber == 0 then false
  else if isEmptyHash l.txHash then false
  else true

/-- `TransactionLogs` (logs.go 14-27). -/
structure TxLogs where
  hash : List Nat
  logs : List Log
  deriving DecidableEq

/-- `NewTransactionLogsFromEth` (logs.go 22-27, 91-98). -/
def txFromEth (up : List Nat → Nat → Bool) (hash : List Nat) (ls : List EthLog) : TxLogs :=
  { hash := hashText hash, logs := ls.map (fromEth up) }

/-- `EthLogs` (logs.go 50-52, 101-107). -/
def txToEth (t : TxLogs) : List EthLog := t.logs.map toEth

/-- `TransactionLogs.Validate` (logs.go 30-47); texts of hashes are compared. -/
def txValidate (t : TxLogs) : Bool :=
  if isEmptyHash t.hash then false else t.logs.all fun l => validate l && l.txHash == t.hash

end LogRecords
