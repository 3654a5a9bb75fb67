/-!
# Address strings

Accounts are twenty bytes.  They are written either as bech32 text (`helios1…` for accounts,
`heliosvaloper1…` for validators) or as hexadecimal text (`0x…`).  The chain's own helpers
that read such text are in `/repo/helios-chain/precompiles/common/types.go` (lines 85-139);
they rest on the bech32 code of the Cosmos SDK and on go-ethereum's `common` package, which
are modelled here after their public description (BIP-173) because they are dependencies and
not in the repository.

A Go string is a sequence of bytes: `Str` is a list of byte values.
-/

namespace Addr

/-- Go strings, as the list of their bytes. -/
abbrev Str := List Nat

/-- The bytes of a literal. -/
def str (s : String) : Str := s.toList.map Char.toNat

/-! ## Digits -/

/-- The number a big-endian list of digits stands for. -/
def value (base : Nat) (ds : List Nat) : Nat := ds.foldl (fun a d => a * base + d) 0

/-- The last `k` digits of `n`, most significant first. -/
def digits (base : Nat) : Nat → Nat → List Nat
  | 0, _ => []
  | k + 1, n => digits base k (n / base) ++ [n % base]

/-! ## Bech32 (BIP-173) -/

/-- The 32 characters of bech32, in the order of their values. -/
def charset : Str := str "qpzry9x8gf2tvdw0s3jn54khce6mua7l"

/-- The character for a value. -/
def charOf (v : Nat) : Nat := charset.getD v 0

/-- The value of a character. -/
def valueOf (c : Nat) : Option Nat :=
  if charset.idxOf c < 32 then some (charset.idxOf c) else none

/-- The values of characters; none if one of them is not allowed. -/
def valuesOf : Str → Option (List Nat)
  | [] => some []
  | c :: cs => match valueOf c, valuesOf cs with
    | some v, some vs => some (v :: vs)
    | _, _ => none

/-- The generator of the checksum applied to the five bits shifted out. -/
def generator (c : BitVec 30) : BitVec 30 :=
  (if c.getLsbD 25 then 0x3b6a57b2#30 else 0) ^^^
  ((if c.getLsbD 26 then 0x26508e6d#30 else 0) ^^^
  ((if c.getLsbD 27 then 0x1ea119fa#30 else 0) ^^^
  ((if c.getLsbD 28 then 0x3d4233dd#30 else 0) ^^^
   (if c.getLsbD 29 then 0x2a1462b3#30 else 0))))

/-- One step of the checksum: `chk = (chk & 0x1ffffff) << 5 ^ v ^ generators`. -/
def polyStep (c : BitVec 30) (v : Nat) : BitVec 30 :=
  (((c &&& 0x1ffffff#30) <<< 5) ^^^ generator c) ^^^ BitVec.ofNat 30 v

/-- The checksum of a list of values. -/
def polymod (c : BitVec 30) (vs : List Nat) : BitVec 30 := vs.foldl polyStep c

/-- The prefix as it enters the checksum: high bits, a zero, low bits. -/
def hrpExpand (hrp : Str) : List Nat := hrp.map (· / 32) ++ 0 :: hrp.map (· % 32)

/-- The six checksum values. -/
def checksum (hrp : Str) (data : List Nat) : List Nat :=
  let p := polymod 1#30 (hrpExpand hrp ++ (data ++ [0, 0, 0, 0, 0, 0])) ^^^ 1#30
  [(p >>> 25).toNat % 32, (p >>> 20).toNat % 32, (p >>> 15).toNat % 32,
   (p >>> 10).toNat % 32, (p >>> 5).toNat % 32, p.toNat % 32]

/-- Bytes to five-bit groups, padded with zero bits (`ConvertBits(data, 8, 5, true)`, written
with numbers instead of a bit buffer). -/
def toGroups (bs : List Nat) : List Nat :=
  let m := (8 * bs.length + 4) / 5
  digits 32 m (value 256 bs * 2 ^ (5 * m - 8 * bs.length))

/-- Five-bit groups to bytes; fewer than five bits may be left over and they must be zero
(`ConvertBits(data, 5, 8, false)`). -/
def ofGroups (gs : List Nat) : Option (List Nat) :=
  let n := 5 * gs.length / 8
  let pad := 5 * gs.length - 8 * n
  if pad < 5 ∧ value 32 gs % 2 ^ pad = 0 then some (digits 256 n (value 32 gs / 2 ^ pad))
  else none

/-- `bech32.ConvertAndEncode`: prefix, separator `1`, groups, checksum. -/
def encode (hrp : Str) (bs : List Nat) : Str :=
  hrp ++ 49 :: (toGroups bs ++ checksum hrp (toGroups bs)).map charOf

/-- Lower case of an ASCII letter. -/
def lower (c : Nat) : Nat := if 65 ≤ c ∧ c ≤ 90 then c + 32 else c

/-- Is it an upper (lower) case ASCII letter? -/
def isUpper (c : Nat) : Bool := decide (65 ≤ c ∧ c ≤ 90)
def isLower (c : Nat) : Bool := decide (97 ≤ c ∧ c ≤ 122)

/-- The text before and after the last separator `1` (`strings.LastIndexByte`). -/
def splitLast : Str → Option (Str × Str)
  | [] => none
  | c :: cs => match splitLast cs with
    | some (h, d) => some (c :: h, d)
    | none => if c = 49 then some ([], cs) else none

/-- `bech32.Decode` without the length limit: printable characters, one case, a prefix, at
least six characters after the separator, allowed characters and the checksum.  The limit of
1023 characters is left out: every string the chain reads is far shorter. -/
def decodeRaw (s : Str) : Option (Str × List Nat) :=
  if s.all (fun c => decide (33 ≤ c ∧ c ≤ 126)) && !(s.any isUpper && s.any isLower) then
    match splitLast (s.map lower) with
    | none => none
    | some (hrp, tail) =>
      if hrp = [] then none else
      match valuesOf tail with
      | none => none
      | some vs =>
        if vs.length < 6 then none
        else if polymod 1#30 (hrpExpand hrp ++ vs) = 1#30 then some (hrp, vs.take (vs.length - 6))
        else none
  else none

/-- `bech32.DecodeAndConvert`. -/
def decode (s : Str) : Option (Str × List Nat) :=
  match decodeRaw s with
  | none => none
  | some (hrp, gs) => match ofGroups gs with
    | none => none
    | some bs => some (hrp, bs)

/-! ## The chain's helpers -/

/-- `Bech32PrefixAccAddr` and `Bech32PrefixValAddr`, `/repo/helios-chain/types/config.go`
lines 9-24. -/
def accHrp : Str := str "helios"
def valHrp : Str := str "heliosvaloper"

/-- `sdk.GetFromBech32` with `sdk.VerifyAddressFormat`: the prefix must be the expected one and
the address has 1 to 255 bytes. -/
def fromBech32 (hrp : Str) (s : Str) : Option (List Nat) :=
  match decode s with
  | none => none
  | some (h, bs) => if h = hrp ∧ 1 ≤ bs.length ∧ bs.length ≤ 255 then some bs else none

/-- `strings.Contains`. -/
def contains (pat : Str) : Str → Bool
  | [] => pat.isPrefixOf []
  | c :: cs => pat.isPrefixOf (c :: cs) || contains pat cs

/-- `common.BytesToAddress`: the last twenty bytes, or zeros in front. -/
def bytesToAddress (bs : List Nat) : List Nat :=
  List.replicate (20 - bs.length) 0 ++ bs.drop (bs.length - 20)

/-- The value of a hexadecimal digit. -/
def hexValue (c : Nat) : Option Nat :=
  if 48 ≤ c ∧ c ≤ 57 then some (c - 48)
  else if 97 ≤ c ∧ c ≤ 102 then some (c - 87)
  else if 65 ≤ c ∧ c ≤ 70 then some (c - 55)
  else none

/-- `common.Hex2Bytes`: `hex.DecodeString` with the error dropped, so the bytes before the
first bad pair. -/
def hexBytes : Str → List Nat
  | a :: b :: rest => match hexValue a, hexValue b with
    | some x, some y => (16 * x + y) :: hexBytes rest
    | _, _ => []
  | _ => []

/-- `common.FromHex` without its first step: an odd number of digits gets a zero in front. -/
def evenHex (s : Str) : Str := if s.length % 2 = 1 then 48 :: s else s

/-- `common.FromHex`: an optional `0x`, an optional leading zero, then the digits. -/
def fromHex : Str → List Nat
  | 48 :: 120 :: rest => hexBytes (evenHex rest)
  | 48 :: 88 :: rest => hexBytes (evenHex rest)
  | s => hexBytes (evenHex s)

/-- `common.HexToAddress`. -/
def hexToAddress (s : Str) : List Nat := bytesToAddress (fromHex s)

/-- `sdk.PrefixValidator`. -/
def valText : Str := str "val"

/-- `cmn.HexAddressFromBech32String`, `/repo/helios-chain/precompiles/common/types.go` lines
89-102: text containing `val` is read as a validator address. -/
def hexAddressFromBech32 (s : Str) : Option (List Nat) :=
  if contains valText s then
    match fromBech32 valHrp s with
    | none => none
    | some bs => some (bytesToAddress bs)
  else
    match fromBech32 accHrp s with
    | none => none
    | some bs => some (bytesToAddress bs)

/-- `cmn.AnyToHexAddress`, types.go lines 125-139. -/
def anyToHex (s : Str) : List Nat :=
  if contains valText s then
    match fromBech32 valHrp s with
    | none => hexToAddress s
    | some bs => bytesToAddress bs
  else
    match hexAddressFromBech32 s with
    | some a => a
    | none => hexToAddress s

/-- `AccAddress.String()` and `ValAddress.String()`. -/
def accString (a : List Nat) : Str := encode accHrp a
def valString (a : List Nat) : Str := encode valHrp a

/-- A hexadecimal digit as `common.Address.String()` may print it; `up` says whether the letter
is in upper case (the EIP-55 capitals carry a checksum that readers ignore). -/
def hexDigit (up : Bool) (d : Nat) : Nat :=
  if d < 10 then 48 + d else if up then 55 + d else 87 + d

/-- The digits of the bytes of an address, each letter in some case. -/
def hexText (up : Nat → Bool) : Nat → List Nat → Str
  | _, [] => []
  | i, b :: bs => hexDigit (up i) (b / 16) :: hexDigit (up (i + 1)) (b % 16) :: hexText up (i + 2) bs

/-- `common.Address.String()`: `0x` and forty digits. -/
def hexString (up : Nat → Bool) (a : List Nat) : Str := 48 :: 120 :: hexText up 0 a

end Addr
