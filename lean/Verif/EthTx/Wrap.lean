import Verif.Addr.Bech32
/-!
# Ethereum transactions as messages of the chain

Models `FromEthereumTx`, `AsTransaction` and `ValidateBasic` of `MsgEthereumTx`
(/repo/helios-chain/x/evm/types/msg.go, lines 131-200 and 281-289), the three kinds of transaction data
(/repo/helios-chain/x/evm/types/legacy_tx.go, access_list_tx.go, dynamic_fee_tx.go), access lists
(/repo/helios-chain/x/evm/types/access_list.go) and the chain number of a legacy transaction
(/repo/helios-chain/utils/eth/eth.go).

Texts and bytes are lists of numbers as in `Addr/Bech32.lean`. The hash of a transaction (Keccak of its RLP
encoding, from go-ethereum) is a parameter; so is the case of letters in checksummed addresses. RLP does
not tell an absent number from zero nor an absent list from an empty one, and go-ethereum's `NewTx` turns
absent numbers into zero: a transaction has neither.
-/

namespace Wrap

open Addr

/-- What differs between the kinds of transactions: legacy (gas price), with an access list (chain, gas
price, accesses), with dynamic fees (chain, tip cap, fee cap, accesses). -/
inductive Kind
  | legacy (price : Int)
  | access (chain price : Int) (accesses : List (List Nat × List (List Nat)))
  | dynamic (chain tip cap : Int) (accesses : List (List Nat × List (List Nat)))
  deriving DecidableEq, Repr

/-- A transaction of go-ethereum. -/
structure Tx where
  kind : Kind
  nonce : Nat
  gas : Nat
  to : Option (List Nat)
  value : Int
  data : List Nat
  v : Int
  r : Int
  s : Int
  deriving DecidableEq, Repr

/-- `LegacyTx`, `AccessListTx` and `DynamicFeeTx` of the chain (tx.pb.go): what differs. -/
inductive DataKind
  | legacy (price : Option Int)
  | access (chain price : Option Int) (accesses : List (Str × List Str))
  | dynamic (chain tip cap : Option Int) (accesses : List (Str × List Str))
  deriving DecidableEq, Repr

/-- The same: what they have in common. -/
structure Data where
  kind : DataKind
  nonce : Nat
  gas : Nat
  to : Str
  amount : Option Int
  data : List Nat
  v : List Nat
  r : List Nat
  s : List Nat
  deriving DecidableEq, Repr

/-- `MsgEthereumTx`; the deprecated size is zero. -/
structure Msg where
  data : Data
  hash : Str
  from_ : Str
  deriving DecidableEq, Repr

/-- What a function of Go ends with. -/
inductive Res (α : Type)
  | ok (x : α)
  | error
  | panic
  deriving DecidableEq, Repr

/-! ## Numbers and texts -/

/-- `IsValidInt256` (/repo/helios-chain/types/int.go lines 37-39): at most 256 bits. -/
def valid256 (i : Int) : Bool := decide (i.natAbs < 2 ^ 256)

/-- The bytes of a number, most significant first and none of them a leading zero; `fuel` bounds their
number. -/
def bytesAux : (fuel n : Nat) → List Nat → List Nat
  | 0, _, acc => acc
  | fuel + 1, n, acc => if n = 0 then acc else bytesAux fuel (n / 256) (n % 256 :: acc)

/-- `big.Int.Bytes`: of the absolute value. -/
def bytes (i : Int) : List Nat := bytesAux i.natAbs i.natAbs []

/-- `RawSignatureValues` (eth.go lines 37-48) for one value. No bytes give an absent number, which
`NewTx` turns into zero. -/
def ofBytes (bs : List Nat) : Int := (value 256 bs : Nat)

/-- `common.BytesToHash`: the last 32 bytes, or zeros in front. -/
def bytesToHash (bs : List Nat) : List Nat := List.replicate (32 - bs.length) 0 ++ bs.drop (bs.length - 32)

/-- `common.HexToHash`. -/
def hexToHash (s : Str) : List Nat := bytesToHash (fromHex s)

/-- `common.Hash.String`: lower case. -/
def hashString (h : List Nat) : Str := hexString (fun _ => false) h

/-- `common.IsHexAddress`, which is `ValidateAddress` (/repo/helios-chain/types/validation.go lines
21-30). -/
def isHexAddress (s : Str) : Bool :=
  let b := match s with
    | 48 :: 120 :: r => r
    | 48 :: 88 :: r => r
    | r => r
  decide (b.length = 40) && b.all fun c => (hexValue c).isSome

/-! ## Into a message -/

/-- `NewAccessList` (access_list.go lines 14-33). `up` gives the capitals of an address's text. -/
def textAccesses (up : List Nat → Nat → Bool) (l : List (List Nat × List (List Nat))) : List (Str × List Str) :=
  l.map fun t => (hexString (up t.1) t.1, t.2.map hashString)

/-- `NewLegacyTx`, `newAccessListTx` and `NewDynamicFeeTx` (legacy_tx.go lines 16-47, access_list_tx.go and
dynamic_fee_tx.go, the same): numbers of more than 256 bits are refused, but a chain number of more than 256
bits makes `NewIntFromBigInt` panic (`SetSignatureValues`, access_list_tx.go and dynamic_fee_tx.go). -/
def kindData (up : List Nat → Nat → Bool) : Kind → Res DataKind
  | .legacy price => if valid256 price then .ok (.legacy (some price)) else .error
  | .access chain price l =>
    if valid256 price then
      if valid256 chain then .ok (.access (some chain) (some price) (textAccesses up l)) else .panic
    else .error
  | .dynamic chain tip cap l =>
    if valid256 cap && valid256 tip then
      if valid256 chain then .ok (.dynamic (some chain) (some tip) (some cap) (textAccesses up l)) else .panic
    else .error

/-- The text of the recipient (legacy_tx.go lines 24-26). -/
def toText (up : List Nat → Nat → Bool) : Option (List Nat) → Str
  | none => []
  | some a => hexString (up a) a

/-- `NewTxDataFromTx` (tx_data.go lines 55-73). -/
def ofTx (up : List Nat → Nat → Bool) (tx : Tx) : Res Data :=
  if valid256 tx.value then
    match kindData up tx.kind with
    | .ok k => .ok ⟨k, tx.nonce, tx.gas, toText up tx.to, some tx.value, tx.data, bytes tx.v, bytes tx.r, bytes tx.s⟩
    | .error => .error
    | .panic => .panic
  else .error

/-- `FromEthereumTx` (msg.go lines 131-146); `H` is the hash of a transaction. -/
def fromTx (up : List Nat → Nat → Bool) (H : Tx → List Nat) (tx : Tx) : Res Msg :=
  match ofTx up tx with
  | .ok d => .ok ⟨d, hashString (H tx), []⟩
  | .error => .error
  | .panic => .panic

/-! ## Out of a message -/

/-- `ToEthAccessList` (access_list.go lines 37-55). -/
def readAccesses (l : List (Str × List Str)) : List (List Nat × List (List Nat)) :=
  l.map fun t => (hexToAddress t.1, t.2.map hexToHash)

/-- `AsEthereumData` (legacy_tx.go lines 121-134 and the others), followed by go-ethereum's `NewTx`. -/
def kindOf : DataKind → Kind
  | .legacy price => .legacy (price.getD 0)
  | .access chain price l => .access (chain.getD 0) (price.getD 0) (readAccesses l)
  | .dynamic chain tip cap l => .dynamic (chain.getD 0) (tip.getD 0) (cap.getD 0) (readAccesses l)

/-- `AsTransaction` (msg.go lines 281-289). -/
def asTx (d : Data) : Tx :=
  ⟨kindOf d.kind, d.nonce, d.gas, if d.to = [] then none else some (hexToAddress d.to), d.amount.getD 0, d.data,
    ofBytes d.v, ofBytes d.r, ofBytes d.s⟩

/-! ## Validation -/

/-- `DeriveChainID` (eth.go lines 13-33) of the bytes of v (lines 38-40: none are an absent number). -/
def deriveChain (v : List Nat) : Option Nat :=
  if v.length = 0 then none
  else if value 256 v < 1 then none
  else if value 256 v < 2 ^ 64 then
    if value 256 v = 27 ∨ value 256 v = 28 then some 0
    else if value 256 v < 35 then none
    else some ((value 256 v - 35) / 2)
  else some ((value 256 v - 35) / 2)

/-- A gas price (legacy_tx.go lines 164-176): present, not negative, in bounds, and so is the fee. -/
def priceOk (price : Option Int) (gas : Nat) : Bool :=
  match price with
  | none => false
  | some p => decide (0 ≤ p) && valid256 p && valid256 (p * gas)

/-- The caps (dynamic_fee_tx.go lines 198-236). -/
def capsOk (tip cap : Option Int) (gas : Nat) : Bool :=
  match tip, cap with
  | some t, some c => decide (0 ≤ t) && decide (0 ≤ c) && valid256 t && valid256 c && decide (t ≤ c) && valid256 (c * gas)
  | _, _ => false

/-- An amount: absent, or not negative and in bounds (legacy_tx.go lines 178-185). -/
def amountOk : Option Int → Bool
  | none => true
  | some a => decide (0 ≤ a) && valid256 a

/-- `Validate` (legacy_tx.go lines 164-203, access_list_tx.go, dynamic_fee_tx.go lines 198-257). -/
def validate (d : Data) : Bool :=
  (match d.kind with
    | .legacy price => priceOk price d.gas && (deriveChain d.v).isSome
    | .access chain price _ => priceOk price d.gas && chain.isSome
    | .dynamic chain tip cap _ => capsOk tip cap d.gas && chain.isSome)
  && amountOk d.amount && (decide (d.to = []) || isHexAddress d.to)

/-- `ValidateBasic` (msg.go lines 159-200). -/
def basic (H : Tx → List Nat) (m : Msg) : Bool :=
  (decide (m.from_ = []) || isHexAddress m.from_) && decide (m.data.gas ≠ 0) && decide (m.data.gas < 2 ^ 63) &&
    validate m.data && decide (m.hash = hashString (H (asTx m.data)))

end Wrap
