import Verif.Typed.Data
import Verif.Hyperion.Claims
/-!
# Cosmos transactions as typed data

A Cosmos transaction may be signed by an Ethereum wallet: the document to sign, a JSON object, is turned into typed data.
`VerifySignature` of the chain's key type (`/repo/helios-chain/crypto/ethsecp256k1/ethsecp256k1.go` 212-247) takes a
signature over the document's bytes, over its typed data, or over its typed data of the older form.

Modelled: `/repo/helios-chain/eip712/{message,types,domain,eip712,encoding}.go`, and of `eip712_legacy.go` and
`encoding_legacy.go` what becomes of the document; there the table of types comes from reflection on the Go type of the
first message, which is a parameter.  A JSON object is in the order of its keys, as `MustSortJSON` leaves it; names are
looked up as they are (`gjson` gives `.`, `*` and `?` in names a meaning of their own: keys of messages have none).
-/
namespace Typed

/-! ## Flattening the messages (message.go) -/

/-- `msgFieldForIndex` (message.go 136-138). -/
def msgField (i : Nat) : Bytes := txt "msg" ++ Hyperion.dec i

/-- `getPayloadMessages` (message.go 93-109). -/
def msgsOf (d : List (Bytes × J)) : Option (List J) :=
  match KV.get d (txt "msgs") with
  | some .null => some []
  | some (.arr l) => some l
  | _ => none

/-- Is it an object? -/
def J.isObj : J → Bool
  | .obj _ => true
  | _ => false

/-- The loop of `FlattenPayloadMessages` with `payloadWithNewMessage` (message.go 77-82, 113-132). -/
def addMsgs : List (Bytes × J) → Nat → List J → Option (List (Bytes × J))
  | d, _, [] => some d
  | d, i, m :: ms =>
    if (KV.get d (msgField i)).isSome then none
    else if m.isObj = false then none
    else addMsgs (d ++ [(msgField i, m)]) (i + 1) ms

/-- `FlattenPayloadMessages` (message.go 68-90): the flattened object and the number of messages. -/
def flattenMsgs (d : List (Bytes × J)) : Option (List (Bytes × J) × Nat) :=
  match msgsOf d with
  | none => none
  | some ms => match addMsgs d 0 ms with
    | none => none
    | some r => some (KV.del r (txt "msgs"), ms.length)

/-! ## The table of types (types.go) -/

/-- `strings.Split` at one byte. -/
def split (c : UInt8) : Bytes → List Bytes
  | [] => [[]]
  | x :: xs => if x = c then [] :: split c xs
    else match split c xs with
      | [] => [[x]]
      | p :: ps => (x :: p) :: ps

/-- The first letter in upper case.  (`cases.Title` does this for each word of a name; names of fields are one word.) -/
def title : Bytes → Bytes
  | [] => []
  | c :: cs => (if 0x61 ≤ c ∧ c ≤ 0x7a then c - 0x20 else c) :: cs

/-- `sanitizeTypedef` (types.go 353-372). -/
def sanitize (s : Bytes) : Bytes :=
  ((split 0x2e s).map (fun part => if part = [0x5f] then txt "Type" else ((split 0x5f part).map title).flatten)).flatten

/-- `addTypesToRoot` (types.go 281-315): under the first number with the same fields or with none yet; at most `r`
numbers are tried. -/
def addAt (ts : Types) (name : Bytes) (fs : List Field) : Nat → Nat → Option (Bytes × Types)
  | 0, _ => none
  | r + 1, i =>
    match KV.get ts (name ++ Hyperion.dec i) with
    | none => some (name ++ Hyperion.dec i, ts ++ [(name ++ Hyperion.dec i, fs)])
    | some fs' => if fs' = fs then some (name ++ Hyperion.dec i, ts) else addAt ts name fs r (i + 1)

/-- `maxDuplicateTypeDefs` (types.go 28). -/
def maxDuplicates : Nat := 1000

/-- Is it a list? -/
def J.isArr : J → Bool
  | .arr _ => true
  | _ => false

mutual
/-- The fields of an object, in descending order of their names, and the table with the types they need (the loop of
`recursivelyAddTypesToRoot`, types.go 165-218).  The object is in ascending order: the loop goes from its end. -/
def genFields (pre : Bytes) : List (Bytes × J) → Types → Option (List Field × Types)
  | [], ts => some ([], ts)
  | (k, v) :: rest, ts =>
    match genFields pre rest ts with
    | none => none
    | some (fs, ts') =>
      match genValue (pre ++ 0x2e :: k) v ts' with
      | none => none
      | some (none, ts'') => some (fs, ts'')
      | some (some t, ts'') => some (fs ++ [⟨k, t⟩], ts'')
/-- The type of one value, if it gets any (types.go 171-217). -/
def genValue (pre : Bytes) : J → Types → Option (Option Bytes × Types)
  | .null, ts => some (none, ts)
  | .bool _, ts => some (some (txt "bool"), ts)
  | .num _, ts => some (some (txt "int64"), ts)
  | .str _, ts => some (some (txt "string"), ts)
  | .obj m, ts =>
    match genFields pre m ts with
    | none => none
    | some (fs, ts') =>
      match addAt ts' (sanitize pre) fs maxDuplicates 0 with
      | none => none
      | some (t, ts'') => some (some (sanitize t), ts'')
  | .arr [], ts => some (some (txt "string[]"), ts)
  | .arr (x :: _), ts =>
    if x.isArr then some (none, ts)
    else match genValue pre x ts with
      | none => none
      | some (none, ts') => some (none, ts')
      | some (some t, ts') => some (some (t ++ txt "[]"), ts')
end

/-- `msgRootType` (types.go 113-127): `Type` and what follows the last `/` of the message's type. -/
def rootType (m : List (Bytes × J)) : Option Bytes :=
  match KV.get m (txt "type") with
  | some (.str (c :: cs)) => some (txt "Type" ++ (split 0x2f (c :: cs)).getLastD [])
  | _ => none

/-- `addMsgTypesToRoot` and `addMsgTypeDefToTxSchema` (types.go 89-136). -/
def genMsg (ts : Types) (field : Bytes) (msg : Option J) : Option Types :=
  match msg with
  | some (.obj m) =>
    match rootType m, genFields [0x5f] m ts with
    | some root, some (fs, ts') =>
      match addAt ts' root fs maxDuplicates 0 with
      | none => none
      | some (t, ts'') => some (KV.set ts'' (txt "Tx") (fieldsOf ts'' (txt "Tx") ++ [⟨field, t⟩]))
    | _, _ => none
  | _ => none

/-- The loop of `createEIP712Types` (types.go 76-83). -/
def genAll (flat : List (Bytes × J)) : Nat → Nat → Types → Option Types
  | 0, _, ts => some ts
  | r + 1, i, ts =>
    match genMsg ts (msgField i) (KV.get flat (msgField i)) with
    | none => none
    | some ts' => genAll flat r (i + 1) ts'

/-- The domain's fields (types.go 35-56). -/
def domainFields : List Field :=
  [⟨txt "name", txt "string"⟩, ⟨txt "version", txt "string"⟩, ⟨txt "chainId", txt "uint256"⟩,
   ⟨txt "verifyingContract", txt "string"⟩, ⟨txt "salt", txt "string"⟩]

/-- The fields of a transaction besides the messages (types.go 57-64). -/
def txFields : List Field :=
  [⟨txt "account_number", txt "string"⟩, ⟨txt "chain_id", txt "string"⟩, ⟨txt "fee", txt "Fee"⟩,
   ⟨txt "memo", txt "string"⟩, ⟨txt "sequence", txt "string"⟩]

/-- The types each table begins with (types.go 34-74). -/
def baseTypes : Types :=
  [(txt "EIP712Domain", domainFields),
   (txt "Tx", txFields),
   (txt "Fee", [⟨txt "amount", txt "Coin[]"⟩, ⟨txt "gas", txt "string"⟩]),
   (txt "Coin", [⟨txt "denom", txt "string"⟩, ⟨txt "amount", txt "string"⟩])]

/-- `createEIP712Domain` (domain.go 9-18); `cid` is the chain's number as an `int64`. -/
def domainOf (cid : Int) : List (Bytes × J) :=
  [(txt "chainId", .num cid), (txt "name", .str (txt "Cosmos Web3")), (txt "salt", .str (txt "0")),
   (txt "verifyingContract", .str (txt "cosmos")), (txt "version", .str (txt "1.0.0"))]

/-- The table and the value of `WrapTxToTypedData` (eip712.go 9-35). -/
def wrap (d : List (Bytes × J)) : Option (Types × List (Bytes × J)) :=
  match flattenMsgs d with
  | none => none
  | some (flat, n) => match genAll flat n 0 baseTypes with
    | none => none
    | some ts => some (ts, flat)

/-- What the parts outside the model do: the hash, `HexOrDecimal256.UnmarshalText`, `ParseChainID` (followed by the
conversion to `int64`), and the table of types made by reflection for the older form. -/
structure Env where
  hash : Bytes → Option Bytes
  number : Bytes → Option Int
  chain : Bytes → Option Int
  reflect : List (Bytes × J) → Option Types

/-- The chain's number named by a document (encoding.go 108-111). -/
def chainOf (E : Env) (d : List (Bytes × J)) : Option Int :=
  match KV.get d (txt "chain_id") with
  | some (.str s) => E.chain s
  | _ => none

/-- `validatePayloadMessages` (encoding.go 213-240), as far as there must be a message.  (That all are signed by one
account is left out: it only refuses more.) -/
def hasMsgs (d : List (Bytes × J)) : Bool :=
  match msgsOf d with
  | some (_ :: _) => true
  | _ => false

/-- `GetEIP712BytesForMsg` of a document in JSON (encoding.go 35-47, 74-124): the bytes whose hash is signed. -/
def typedBytes (E : Env) (d : List (Bytes × J)) : Option Bytes :=
  if hasMsgs d = false then none
  else match chainOf E d, wrap d with
    | some cid, some (ts, flat) => rawData E.hash E.number ts (domainOf cid) (txt "Tx") flat
    | _, _ => none

/-! ## The older form (eip712_legacy.go, encoding_legacy.go) -/

/-- The fields of a transaction in the older form (eip712_legacy.go 113-122). -/
def oldTxFields : List Field :=
  [⟨txt "account_number", txt "string"⟩, ⟨txt "chain_id", txt "string"⟩, ⟨txt "fee", txt "Fee"⟩,
   ⟨txt "memo", txt "string"⟩, ⟨txt "msgs", txt "Msg[]"⟩, ⟨txt "sequence", txt "string"⟩]

/-- The fee's fields in the older form (eip712_legacy.go 70-75). -/
def oldFeeFields : List Field :=
  [⟨txt "feePayer", txt "string"⟩, ⟨txt "amount", txt "Coin[]"⟩, ⟨txt "gas", txt "string"⟩]

/-- A map with one entry replaced, in place. -/
def replace (k : Bytes) (v : J) : List (Bytes × J) → List (Bytes × J)
  | [] => []
  | e :: l => if e.1 = k then (k, v) :: l else e :: replace k v l

/-- `feeInfo["feePayer"] = feeDelegation.FeePayer.String()` (eip712_legacy.go 61-67). -/
def withPayer (payer : Bytes) (d : List (Bytes × J)) : Option (List (Bytes × J)) :=
  match KV.get d (txt "fee") with
  | some (.obj f) => some (replace (txt "fee") (.obj (KV.set f (txt "feePayer") (.str payer))) d)
  | _ => none

/-- `LegacyGetEIP712BytesForMsg` of a document in JSON (encoding_legacy.go 23-36, 57-117), and the data that the ante
handler of transactions with the Web3 extension verifies (`/repo/helios-chain/app/ante/cosmos/eip712.go` 166-225): `payer`
is the address that pays. -/
def oldBytes (E : Env) (payer : Bytes) (d : List (Bytes × J)) : Option Bytes :=
  if hasMsgs d = false then none
  else match chainOf E d, withPayer payer d, E.reflect d with
    | some cid, some d', some ts =>
      rawData E.hash E.number (KV.set ts (txt "Fee") oldFeeFields) (domainOf cid) (txt "Tx") d'
    | _, _, _ => none

/-- The byte strings whose hash a signature may be over to be taken for the document (ethsecp256k1.go 212-236): the bytes
to sign themselves, the typed data, and the typed data of the older form; the last only if there is the second. -/
def forms (E : Env) (payer raw : Bytes) (d : List (Bytes × J)) : List Bytes :=
  raw :: match typedBytes E d with
    | none => []
    | some x => x :: match oldBytes E payer d with
      | none => []
      | some y => [y]

/-! ## Documents -/

/-- A coin in JSON. -/
def coinJson (c : Bytes × Nat) : J := .obj [(txt "amount", .str (Hyperion.dec c.2)), (txt "denom", .str c.1)]

/-- `legacytx.StdSignBytes` as JSON: the object with sorted keys.  A timeout of zero is left out. -/
def stdDoc (chainId : Bytes) (account sequence timeout : Nat) (amount : List (Bytes × Nat)) (gas : Nat) (msgs : List J)
    (memo : Bytes) : List (Bytes × J) :=
  [(txt "account_number", .str (Hyperion.dec account)), (txt "chain_id", .str chainId),
   (txt "fee", .obj [(txt "amount", .arr (amount.map coinJson)), (txt "gas", .str (Hyperion.dec gas))]),
   (txt "memo", .str memo), (txt "msgs", .arr msgs), (txt "sequence", .str (Hyperion.dec sequence))] ++
  (if timeout = 0 then [] else [(txt "timeout_height", .str (Hyperion.dec timeout))])

/-- One signer's part of a transaction (`SignerInfo`): the key, how it signs, and the sequence. -/
structure Signer where
  key : Bytes
  mode : Nat
  sequence : Nat
  deriving DecidableEq

/-- `SignDoc` with its body and authorisation read (`SIGN_MODE_DIRECT`).  The messages are given by their JSON; options
are only counted. -/
structure SignDoc where
  chainId : Bytes
  account : Nat
  msgs : List J
  memo : Bytes
  timeout : Nat
  options : Nat
  nonCritical : Nat
  signers : List Signer
  amount : List (Bytes × Nat)
  gas : Nat
  payer : Bytes
  granter : Bytes

/-- The document that `decodeProtobufSignDoc` makes of it (encoding.go 128-199). -/
def docOf (s : SignDoc) : Option (List (Bytes × J)) :=
  if s.timeout ≠ 0 ∨ s.options ≠ 0 ∨ s.nonCritical ≠ 0 then none
  else match s.signers with
    | [i] => some (stdDoc s.chainId s.account i.sequence s.timeout s.amount s.gas s.msgs s.memo)
    | _ => none

/-- The typed data of a transaction signed in `SIGN_MODE_DIRECT`. -/
def directBytes (E : Env) (s : SignDoc) : Option Bytes :=
  match docOf s with
  | none => none
  | some d => typedBytes E d

/-- Who pays the fee, by the SDK's `DeductFeeDecorator`: the granter if there is one; otherwise the payer if there is
one; otherwise the first signer. -/
def chargedTo (s : SignDoc) (firstSigner : Bytes) : Bytes :=
  if s.granter ≠ [] then s.granter else if s.payer ≠ [] then s.payer else firstSigner

end Typed
