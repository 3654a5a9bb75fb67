import Verif.Lib.KV
import Verif.Lib.Bytes
import Verif.Lib.Sort
/-!
# Typed data and what is hashed of it (EIP-712)

A wallet shows a transaction as typed data: a table of types, a value of one of them, and a domain.  What it signs is the
hash of `0x19 0x01 ‖ hash(domain) ‖ hash(value)`.  The hashing is done by go-ethereum's `apitypes` package, of which the
repository has its own copy: `/repo/helios-chain/app/ante/typeddata/typed_data.go`.  The model follows that copy.

Bytes and Go strings are lists of bytes.  The hash (Keccak-256) is a parameter `K`, given only on some strings: it stands
for Keccak restricted to strings among which there is no collision (`NoCollision` in `DataSpec.lean`).
-/
namespace Typed

/-- Bytes, and Go strings. -/
abbrev Bytes := List UInt8

/-- The bytes of a literal. -/
def txt (s : String) : Bytes := s.toList.map (fun c => UInt8.ofNat c.toNat)

/-- JSON as `gjson` and `encoding/json` read it.  A number is the `float64` read; only whole ones are represented, since
others are refused by `parseInteger` (typed_data.go 346-353).  (Whole numbers of more than 53 bits are rounded when they
are read: the model starts from the rounded number.)  An object stands for a Go map. -/
inductive J where
  | null
  | bool (b : Bool)
  | num (n : Int)
  | str (s : Bytes)
  | arr (l : List J)
  | obj (l : List (Bytes × J))

/-- `Type` (typed_data.go 70-73): a field of a type. -/
structure Field where
  name : Bytes
  type : Bytes
  deriving DecidableEq

/-- `Types` (typed_data.go 97): a Go map from names to fields. -/
abbrev Types := List (Bytes × List Field)

/-- `strings.TrimSuffix(t, "[]")` (typed_data.go 81-86, 152). -/
def trim (t : Bytes) : Bytes :=
  if t.drop (t.length - 2) = txt "[]" then t.take (t.length - 2) else t

/-- `strings.Split(encType, "[")[0]` (typed_data.go 247). -/
def elemOf (t : Bytes) : Bytes := t.takeWhile (fun c => decide (c ≠ 0x5b))

/-- `encType[len(encType)-1:] == "]"` (typed_data.go 240). -/
def isArr (t : Bytes) : Bool := decide (t.getLast? = some 0x5d)

/-! ## Which types there are -/

/-- The loop that adds what is not yet found (typed_data.go 173-177). -/
def addAll (found more : List Bytes) : List Bytes :=
  more.foldl (fun f d => if f.contains d then f else f ++ [d]) found

/-- `Dependencies` (typed_data.go 150-181).  The first argument bounds the depth of the recursion; `encodeType` gives as
much as there are types and one more, which is enough (`deps_closed` in `DataLemmas.lean`). -/
def deps (ts : Types) : Nat → Bytes → List Bytes → List Bytes
  | 0, _, found => found
  | n + 1, p, found =>
    if found.contains (trim p) then found
    else match KV.get ts (trim p) with
      | none => found
      | some fs => fs.foldl (fun f fld => addAll f (deps ts n fld.type f)) (found ++ [trim p])

/-- `a <= b` for Go strings. -/
def ble : Bytes → Bytes → Bool
  | [], _ => true
  | _ :: _, [] => false
  | a :: as, b :: bs => if a < b then true else if b < a then false else ble as bs

/-- `type ‖ " " ‖ name ‖ ","` (typed_data.go 198-201). -/
def fieldText (f : Field) : Bytes := f.type ++ 0x20 :: (f.name ++ [0x2c])

/-- One type as written by `EncodeType` (typed_data.go 195-204): the name, `(`, the fields, the last byte cut off, and
`)`.  (Of a type without fields it is the `(` that is cut off.) -/
def blockText (name : Bytes) (fs : List Field) : Bytes :=
  (name ++ 0x28 :: (fs.map fieldText).flatten).dropLast ++ [0x29]

/-- The fields of a type; none if there is no such type (a Go map's zero value). -/
def fieldsOf (ts : Types) (p : Bytes) : List Field := (KV.get ts p).getD []

/-- The types written by `EncodeType` (typed_data.go 185-191): the type itself, then the others in order. -/
def listed (ts : Types) (p : Bytes) : List Bytes :=
  match deps ts (ts.length + 1) p [] with
  | [] => []
  | _ :: others => p :: StableSort.sortBy ble others

/-- `EncodeType` (typed_data.go 184-209). -/
def encodeType (ts : Types) (p : Bytes) : Bytes :=
  ((listed ts p).map (fun d => blockText d (fieldsOf ts d))).flatten

/-! ## Validity of the table -/

/-- An upper case letter of ASCII. -/
def isUpper (c : UInt8) : Bool := decide (0x41 ≤ c ∧ c ≤ 0x5a)

/-- `\w`. -/
def isWord (c : UInt8) : Bool :=
  isUpper c || decide (0x61 ≤ c ∧ c ≤ 0x7a) || decide (0x30 ≤ c ∧ c ≤ 0x39) || decide (c = 0x5f)

/-- `^[A-Z](\w*)(\[\])?$` (typed_data.go 114). -/
def isReference (t : Bytes) : Bool :=
  match trim t with
  | [] => false
  | c :: cs => isUpper c && cs.all isWord

/-- The primitive types of the model, with the number of bits and whether there is a sign for whole numbers
(typed_data.go 667-779).  `address`, `bytes…` and the other widths are made by neither of the wrappers and are left
out. -/
def primitives : List (Bytes × Option (Bool × Nat)) :=
  [(txt "bool", none), (txt "string", none),
   (txt "int8", some (true, 8)), (txt "int16", some (true, 16)),
   (txt "int32", some (true, 32)), (txt "int64", some (true, 64)),
   (txt "uint8", some (false, 8)), (txt "uint16", some (false, 16)),
   (txt "uint32", some (false, 32)), (txt "uint64", some (false, 64)), (txt "uint256", some (false, 256))]

/-- The checks of `Types.validate` for one field of the type `key` (typed_data.go 641-660). -/
def fieldOk (ts : Types) (key : Bytes) (f : Field) : Bool :=
  decide (f.name ≠ []) && decide (key ≠ f.type) &&
  (if (f.type.head?.map isUpper) = some true then (KV.get ts (trim f.type)).isSome && isReference f.type
   else (KV.get primitives (trim f.type)).isSome)

/-- `Types.validate` (typed_data.go 636-664).  That no type is the empty string follows, since none of the primitive
ones is. -/
def valid (ts : Types) : Bool :=
  ts.all (fun e => decide (e.1 ≠ []) && e.2.all (fieldOk ts e.1))

/-! ## Values -/

/-- The 32 bytes of a number, modulo `2^256` (`math.U256Bytes`, `math.PaddedBigBytes`). -/
def word (n : Int) : Bytes := Bytes.be 32 (n % (2 ^ 256 : Int)).toNat

/-- The number a value stands for (typed_data.go 340-358): a number itself, or text that is read by
`HexOrDecimal256.UnmarshalText` (the parameter `pb`). -/
def intOf (pb : Bytes → Option Int) : J → Option Int
  | .num n => some n
  | .str s => pb s
  | _ => none

/-- `parseInteger` (typed_data.go 320-369) for a type of `w` bits. -/
def parseInt (pb : Bytes → Option Int) (signed : Bool) (w : Nat) (v : J) : Option Int :=
  match intOf pb v with
  | none => none
  | some n => if n.natAbs < 2 ^ w ∧ (signed = true ∨ 0 ≤ n) then some n else none

/-- `EncodePrimitiveValue` (typed_data.go 373-433). -/
def encPrim (K : Bytes → Option Bytes) (pb : Bytes → Option Int) (t : Bytes) (v : J) : Option Bytes :=
  if t = txt "bool" then
    match v with
    | .bool b => some (word (if b then 1 else 0))
    | _ => none
  else if t = txt "string" then
    match v with
    | .str s => K s
    | _ => none
  else match KV.get primitives t with
    | some (some (signed, w)) => (parseInt pb signed w v).map word
    | _ => none

/-- All of them, or none. -/
def allSome {α β : Type} (f : α → Option β) : List α → Option (List β)
  | [] => some []
  | x :: xs => match f x, allSome f xs with
    | some y, some ys => some (y :: ys)
    | _, _ => none

/-- A struct's hash from its encoding. -/
def structHash (K : Bytes → Option Bytes) (enc : Option (List Bytes)) : Option Bytes :=
  match enc with
  | none => none
  | some ws => K ws.flatten

/-- One value of a type that may be a struct or primitive (typed_data.go 249-277, 280-296). -/
def encOne (K : Bytes → Option Bytes) (pb : Bytes → Option Int) (ts : Types)
    (rec : Bytes → List (Bytes × J) → Option (List Bytes)) (t : Bytes) (v : J) : Option Bytes :=
  if (KV.get ts t).isSome then
    match v with
    | .obj m => structHash K (rec t m)
    | _ => none
  else encPrim K pb t v

/-- One field of a struct (typed_data.go 235-298). -/
def encField (K : Bytes → Option Bytes) (pb : Bytes → Option Int) (ts : Types)
    (rec : Bytes → List (Bytes × J) → Option (List Bytes)) (data : List (Bytes × J)) (f : Field) : Option Bytes :=
  match KV.get data f.name with
  | none => none
  | some v =>
    if isArr f.type then
      match v with
      | .arr items => structHash K (allSome (encOne K pb ts rec (elemOf f.type)) items)
      | _ => none
    else encOne K pb ts rec f.type v

/-- `EncodeData` (typed_data.go 220-300) as the list of its 32-byte words.  The first argument bounds the depth; the
validity of the table, which is checked at each call, is checked once (`hashOf`). -/
def encData (K : Bytes → Option Bytes) (pb : Bytes → Option Int) (ts : Types) :
    Nat → Bytes → List (Bytes × J) → Option (List Bytes)
  | 0, _, _ => none
  | n + 1, p, data =>
    if (fieldsOf ts p).length < data.length then none
    else match K (encodeType ts p), allSome (encField K pb ts (encData K pb ts n) data) (fieldsOf ts p) with
      | some th, some ws => some (th :: ws)
      | _, _ => none

mutual
/-- How deep a value is: more than the structs within structs in it. -/
def J.depth : J → Nat
  | .arr l => depthList l
  | .obj l => depthFields l + 1
  | _ => 0
/-- The greatest depth in a list. -/
def depthList : List J → Nat
  | [] => 0
  | v :: vs => max v.depth (depthList vs)
/-- The greatest depth in an object. -/
def depthFields : List (Bytes × J) → Nat
  | [] => 0
  | (_, v) :: vs => max v.depth (depthFields vs)
end

/-- `HashStruct` (typed_data.go 141-147). -/
def hashStruct (K : Bytes → Option Bytes) (pb : Bytes → Option Int) (ts : Types) (p : Bytes)
    (data : List (Bytes × J)) : Option Bytes :=
  structHash K (encData K pb ts (depthFields data + 1) p data)

/-- The raw data of `ComputeTypedDataAndHash` (typed_data.go 125-138), whose hash is what is signed: `ds` is the domain's
hash, `p` the primary type. -/
def rawData (K : Bytes → Option Bytes) (pb : Bytes → Option Int) (ts : Types) (domain : List (Bytes × J)) (p : Bytes)
    (data : List (Bytes × J)) : Option Bytes :=
  if valid ts = false then none
  else match hashStruct K pb ts (txt "EIP712Domain") domain, hashStruct K pb ts p data with
    | some ds, some h => some (0x19 :: 0x01 :: (ds ++ h))
    | _, _ => none

end Typed
