/-!
# Naming blocks in requests

Nearly every request of the Ethereum interface names a block: by a number, by a word such as `latest`, or by
its hash. Two types read these names, `BlockNumber` and `BlockNumberOrHash` (`rpc/types/block.go`), and the
back end looks for the block (`rpc/backend/blocks.go`).

Texts are lists of characters; a block number is an integer as in the code, negative for the words. Not
modelled: white space around JSON values (removed before), other characters of Unicode (no text with one is
read as a number), and the state behind the block.
-/

namespace BlockRef

/-- The largest `uint64`. -/
def maxUint64 : Nat := 18446744073709551615

/-- `math.MaxInt64`. -/
def maxInt64 : Nat := 9223372036854775807

/-- The value of a digit or letter in `strconv.ParseUint` (Go's strconv/atoi.go), without the bound by the base. -/
def digitVal (c : Char) : Option Nat :=
  if 48 ≤ c.toNat ∧ c.toNat ≤ 57 then some (c.toNat - 48)
  else if 97 ≤ c.toNat ∧ c.toNat ≤ 122 then some (c.toNat - 87)
  else if 65 ≤ c.toNat ∧ c.toNat ≤ 90 then some (c.toNat - 55)
  else none

/-- The loop of `strconv.ParseUint` over the digits, 64 bits; `und`: underscores are passed over (only when
the base was to be found from the text). Both errors, of syntax and range, are `none`. -/
def digits (base : Nat) (und : Bool) : Nat → List Char → Option Nat
  | acc, [] => some acc
  | acc, c :: cs =>
    if und ∧ c = '_' then digits base und acc cs
    else match digitVal c with
      | none => none
      | some d =>
        if base ≤ d then none
        else if maxUint64 < acc * base + d then none
        else digits base und (acc * base + d) cs

/-- What `underscoreOK` (strconv/atoi.go) saw last. -/
inductive Saw where
  | start | digit | under | other
  deriving DecidableEq

/-- The loop of `underscoreOK`; `hex`: the text has the prefix of base 16. -/
def underLoop (hex : Bool) : Saw → List Char → Bool
  | saw, [] => saw ≠ .under
  | saw, c :: cs =>
    if (48 ≤ c.toNat ∧ c.toNat ≤ 57) ∨
        (hex ∧ ((97 ≤ c.toNat ∧ c.toNat ≤ 102) ∨ (65 ≤ c.toNat ∧ c.toNat ≤ 70))) then underLoop hex .digit cs
    else if c = '_' then (if saw = .digit then underLoop hex .under cs else false)
    else if saw = .under then false
    else underLoop hex .other cs

/-- `strconv.ParseUint(s, 0, 64)`: base from the prefix, a leading zero alone means base 8. The sign that
`underscoreOK` passes over was removed before. -/
def parseUint0 (s : List Char) : Option Nat :=
  let go (base : Nat) (hex : Bool) (saw : Saw) (rest all : List Char) : Option Nat :=
    match digits base true 0 rest with
    | none => none
    | some n => if '_' ∈ rest ∧ underLoop hex saw all = false then none else some n
  match s with
  | [] => none
  | c :: cs =>
    if c = '0' then
      match cs with
      | p :: r :: rs =>
        if p = 'b' ∨ p = 'B' then go 2 false .digit (r :: rs) (r :: rs)
        else if p = 'o' ∨ p = 'O' then go 8 false .digit (r :: rs) (r :: rs)
        else if p = 'x' ∨ p = 'X' then go 16 true .digit (r :: rs) (r :: rs)
        else go 8 false .start cs (c :: cs)
      | _ => go 8 false .start cs (c :: cs)
    else go 10 false .start (c :: cs) (c :: cs)

/-- `strconv.ParseInt(s, 0, 0)` on a machine of 64 bits. -/
def parseInt0 (s : List Char) : Option Int :=
  match s with
  | [] => none
  | c :: cs =>
    if c = '-' then
      match parseUint0 cs with
      | none => none
      | some n => if maxInt64 + 1 < n then none else some (-(n : Int))
    else
      match parseUint0 (if c = '+' then cs else c :: cs) with
      | none => none
      | some n => if maxInt64 < n then none else some n

/-- The loop of `trimZeroDecimal` (spf13/cast v1.7.0, caste.go) from the end of the text: what is left, reversed. -/
def trimRev : Bool → List Char → Option (List Char)
  | _, [] => none
  | found, c :: cs =>
    if c = '.' then (if found then some cs else trimRev found cs)
    else if c = '0' then trimRev true cs
    else none

/-- `trimZeroDecimal`: the text without zeros after a decimal point. -/
def trim (s : List Char) : List Char :=
  match trimRev false s.reverse with
  | some r => r.reverse
  | none => s

/-- `cast.ToUint64` of a text (spf13/cast v1.7.0): the error is dropped and the number is then 0. -/
def castUint64 (s : List Char) : Nat :=
  match parseInt0 (trim s) with
  | none => 0
  | some i => if i < 0 then 0 else i.toNat

/-- `has0xPrefix` (go-ethereum common/hexutil). -/
def has0x : List Char → Bool
  | c :: d :: _ => c = '0' ∧ (d = 'x' ∨ d = 'X')
  | _ => false

/-- The results of `hexutil.DecodeUint64`: the number, the error of a missing prefix, or another error. -/
inductive Dec where
  | ok (n : Nat)
  | missing
  | bad
  deriving DecidableEq

/-- `hexutil.DecodeUint64` (go-ethereum common/hexutil/hexutil.go). -/
def decodeUint64 (s : List Char) : Dec :=
  if s = [] then .bad
  else if has0x s = false then .missing
  else match s.drop 2 with
    | [] => .bad
    | c :: cs =>
      if c = '0' ∧ cs ≠ [] then .bad
      else match digits 16 false 0 (c :: cs) with
        | none => .bad
        | some n => .ok n

/-- `BlockParamEarliest` (rpc/types/block.go 33). -/
def earliest : List Char := ['e','a','r','l','i','e','s','t']
/-- `BlockParamLatest` (rpc/types/block.go 34). -/
def latest : List Char := ['l','a','t','e','s','t']
/-- `BlockParamFinalized` (rpc/types/block.go 35). -/
def finalized : List Char := ['f','i','n','a','l','i','z','e','d']
/-- `BlockParamSafe` (rpc/types/block.go 36). -/
def safe : List Char := ['s','a','f','e']
/-- `BlockParamPending` (rpc/types/block.go 37). -/
def pending : List Char := ['p','e','n','d','i','n','g']

/-- The quotes removed (rpc/types/block.go 68-71). -/
def unquote (data : List Char) : List Char :=
  if 2 ≤ data.length ∧ data.head? = some '"' ∧ data.getLast? = some '"' then data.tail.dropLast else data

/-- `BlockNumber.UnmarshalJSON` (rpc/types/block.go 67-98) after the quotes are removed. -/
def number (s : List Char) : Option Int :=
  if s = earliest then some 0
  else if s = latest ∨ s = finalized ∨ s = safe then some (-1)
  else if s = pending then some (-2)
  else match decodeUint64 s with
    | .bad => none
    | .missing => if maxInt64 < castUint64 s then none else some (castUint64 s)
    | .ok n => if maxInt64 < n then none else some n

/-- `BlockNumber.UnmarshalJSON` (rpc/types/block.go 67-98). -/
def unmarshalNumber (data : List Char) : Option Int := number (unquote data)

/-- What `BlockNumberOrHash` holds (rpc/types/block.go 124-128). -/
inductive Ref where
  | number (n : Int)
  | hash (h : Nat)
  | neither
  deriving DecidableEq

/-- Hexadecimal digits as a number, without bound; for `hex.Decode` in `hexutil.UnmarshalFixedText`. -/
def hexDigits : Nat → List Char → Option Nat
  | acc, [] => some acc
  | acc, c :: cs =>
    match digitVal c with
    | none => none
    | some d => if 16 ≤ d then none else hexDigits (acc * 16 + d) cs

/-- `common.Hash.UnmarshalText` (go-ethereum): the prefix and exactly 64 digits. The hash is the number that
its bytes stand for. -/
def parseHash (s : List Char) : Option Nat :=
  if has0x s ∧ s.length = 66 then hexDigits 0 (s.drop 2) else none

/-- `decodeFromString` (rpc/types/block.go 161-197). -/
def refText (s : List Char) : Option Ref :=
  if s = earliest then some (.number 0)
  else if s = latest ∨ s = finalized then some (.number (-1))
  else if s = pending then some (.number (-2))
  else if s.length = 66 then (parseHash s).map .hash
  else match decodeUint64 s with
    | .ok n => if maxInt64 < n then none else some (.number n)
    | _ => none

/-- The JSON value of a reference: a text, an object with up to two fields (the number as JSON, the hash as
the text between quotes), `null`, or anything else. -/
inductive Param where
  | text (s : List Char)
  | object (num hash : Option (List Char))
  | null
  | other

/-- `BlockNumberOrHash.UnmarshalJSON` and `checkUnmarshal` (rpc/types/block.go 130-159). -/
def refParam : Param → Option Ref
  | .text s => refText s
  | .null => some .neither
  | .other => none
  | .object none none => some .neither
  | .object (some d) none => (unmarshalNumber d).map .number
  | .object none (some h) => (parseHash h).map .hash
  | .object (some _) (some _) => none

/-- The blocks a node has: heights from `base` to `top`, and their hashes. -/
structure Chain where
  base : Nat
  top : Nat
  hash : Nat → Nat

/-- `BlockNumber.Int64` (rpc/types/block.go 101-109). -/
def int64 (bn : Int) : Int := if bn < 0 then 0 else if bn = 0 then 1 else bn

/-- `TendermintBlockByNumber` (rpc/backend/blocks.go 224-247): the height of the block found. Simplified: the
height of the application is that of the block store. -/
def byNumber (c : Chain) (bn : Int) : Option Nat :=
  let h : Int := if int64 bn ≤ 0 then c.top else int64 bn
  if (c.base : Int) ≤ h ∧ h ≤ c.top then some h.toNat else none

/-- What a request finds. -/
inductive Answer where
  | block (height : Nat)
  | fails
  | crashes
  deriving DecidableEq

/-- The height of the header with a hash (CometBFT's index of hashes). -/
def headerByHash (c : Chain) (x : Nat) : Option Nat :=
  (List.range' c.base (c.top + 1 - c.base)).find? fun h => c.hash h = x

/-- `NewBlockNumber` (rpc/types/block.go 40-48). -/
def newBlockNumber (n : Nat) : Int := if maxInt64 < n then -1 else n

/-- `BlockNumberFromTendermint` and `BlockNumberFromTendermintByHash` (rpc/backend/blocks.go 271-301) followed by
`TendermintBlockByNumber`, as in `GetBalance` (rpc/backend/account_info.go 180-193). For an unknown hash
CometBFT's `HeaderByHash` returns a result without header, not a nil result, and reading its height is a
nil-pointer dereference, which the RPC server turns into the error "method handler crashed". -/
def find (c : Chain) : Ref → Answer
  | .neither => .fails
  | .number n => match byNumber c n with
    | some h => .block h
    | none => .fails
  | .hash x => match headerByHash c x with
    | none => .crashes
    | some n => match byNumber c (newBlockNumber n) with
      | some h => .block h
      | none => .fails

end BlockRef
