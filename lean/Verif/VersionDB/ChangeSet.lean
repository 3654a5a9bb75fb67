import Verif.Lib.Bytes
import Verif.Lib.Varint
/-!
# Change set files of versiondb

Models helios-chain/versiondb/client/changeset.go. A reader is the list of the bytes still to come. Compression (openChangeSetFile) is
left out. Versions are the `uint64` that is written.
-/
namespace VersionDB
open Bytes Varint

/-- Errors of readers: `io.EOF`, `io.ErrUnexpectedEOF`, and any other error. -/
inductive Err where
  | eof
  | unexpected
  | other
deriving DecidableEq, Repr

/-- A reader: a result and the bytes left, or an error. -/
abbrev Reader (α : Type) := List UInt8 → Except Err (α × List UInt8)

/-- `iavl.KVPair`. -/
structure Pair where
  delete : Bool
  key : List UInt8
  value : List UInt8
deriving DecidableEq, Repr

/-- `io.ReadFull` of `n` bytes: no error for nothing to read, `io.EOF` at the end, `io.ErrUnexpectedEOF` after some bytes. -/
def readFull (n : Nat) : Reader (List UInt8) := fun bs =>
  if n ≤ bs.length then .ok (bs.take n, bs.drop n)
  else if bs = [] then .error .eof
  else .error .unexpected

/-- `ReadByte`. -/
def readByte : Reader UInt8
  | [] => .error .eof
  | b :: bs => .ok (b, bs)

/-- `binary.ReadUvarint` (Go standard library): at most ten bytes, the tenth at most 1; `i` is the position of the byte. -/
def readUvarint (i : Nat) : Reader Nat
  | [] => if i = 0 then .error .eof else .error .unexpected
  | b :: bs =>
    if i = 10 then .error .other
    else if b.toNat < 128 then (if i = 9 ∧ b.toNat > 1 then .error .other else .ok (b.toNat, bs))
    else match readUvarint (i + 1) bs with
      | .error e => .error e
      | .ok (v, rest) => .ok (b.toNat - 128 + 128 * v, rest)

/-- `bits.Len64`. -/
def bitLen (n : Nat) : Nat := if n = 0 then 0 else n.log2 + 1

/-- `uvarintSize` (changeset.go 354-363). -/
def uvarintSize (n : Nat) : Nat :=
  let q := bitLen n / 7
  let r := bitLen n % 7
  if r > 0 ∨ q = 0 then q + 1 else q

/-- `encodedSizeOfKVPair` (changeset.go 105-117). -/
def encodedSize (p : Pair) : Nat :=
  let size := 1 + uvarintSize p.key.length + p.key.length
  if p.delete then size else size + uvarintSize p.value.length + p.value.length

/-- `encodeKVPair` (changeset.go 119-138). The buffer is allocated with `encodedSize` bytes; that this is the number of bytes written
is `encodedSize_eq`. -/
def encodePair (p : Pair) : List UInt8 :=
  if p.delete then 1 :: (putUvarint p.key.length ++ p.key)
  else 0 :: (putUvarint p.key.length ++ p.key ++ (putUvarint p.value.length ++ p.value))

/-- `readKVPair` (changeset.go 152-187). -/
def readPair : Reader Pair := fun bs =>
  match readByte bs with
  | .error e => .error e
  | .ok (deletion, bs) =>
    match readUvarint 0 bs with
    | .error e => .error e
    | .ok (keyLen, bs) =>
      match readFull keyLen bs with
      | .error e => .error e
      | .ok (key, bs) =>
        if deletion = 1 then .ok (⟨true, key, []⟩, bs)
        else match readUvarint 0 bs with
          | .error e => .error e
          | .ok (valueLen, bs) =>
            match readFull valueLen bs with
            | .error e => .error e
            | .ok (value, bs) => .ok (⟨false, key, value⟩, bs)

/-- `WriteChangeSet` (changeset.go 38-66). -/
def writeChangeSet (version : Nat) (cs : List Pair) : List UInt8 :=
  let items := cs.map encodePair
  le 8 version ++ le 8 items.flatten.length ++ items.flatten

/-- The loop of `ReadChangeSet` (changeset.go 86-97). `fuel` bounds the rounds; each takes at least one byte. -/
def readPairs : (fuel : Nat) → (offset size : Nat) → Reader (List Pair)
  | 0, _, _, _ => .error .other
  | fuel + 1, offset, size, bs =>
    if offset < size then
      match readPair bs with
      | .error e => .error e
      | .ok (p, bs) =>
        match readPairs fuel (offset + encodedSize p) size bs with
        | .error e => .error e
        | .ok (ps, bs) => .ok (p :: ps, bs)
    else if offset = size then .ok ([], bs)
    else .error .other

/-- `ReadChangeSet` with `parseChangeset` (changeset.go 72-104): version, bytes read by its own count, and pairs. -/
def readChangeSet : Reader (Nat × Nat × List Pair) := fun bs =>
  match readFull 16 bs with
  | .error e => .error e
  | .ok (header, bs) =>
    let version := unle (header.take 8)
    let size := unle (header.drop 8)
    if size = 0 then .ok ((version, 16, []), bs)
    else match readPairs (bs.length + 1) 0 size bs with
      | .error e => .error e
      | .ok (ps, bs) => .ok ((version, size + 16, ps), bs)

/-- `ReadChangeSet` without parsing (changeset.go 98-102): `io.CopyN` gives `io.EOF` when there is too little. -/
def skipChangeSet : Reader (Nat × Nat) := fun bs =>
  match readFull 16 bs with
  | .error e => .error e
  | .ok (header, bs) =>
    let version := unle (header.take 8)
    let size := unle (header.drop 8)
    if size ≤ bs.length then .ok ((version, size + 16), bs.drop size) else .error .eof

/-- What an iteration gives: what the callback saw, the offset after the last complete version, and the error, where `io.EOF` counts as
none. -/
structure Iteration (α : Type) where
  seen : List α
  offset : Nat
  error : Option Err
deriving DecidableEq, Repr

def hideEof : Err → Option Err
  | .eof => none
  | e => some e

/-- `IterateChangeSets` (changeset.go 232-265) with a callback that never stops. Each round takes at least 16 bytes. -/
def iterate : (fuel : Nat) → List UInt8 → Iteration (Nat × List Pair)
  | 0, _ => ⟨[], 0, some .other⟩
  | fuel + 1, bs =>
    match readChangeSet bs with
    | .error e => ⟨[], 0, hideEof e⟩
    | .ok ((v, n, ps), rest) =>
      let r := iterate fuel rest
      ⟨(v, ps) :: r.seen, n + r.offset, r.error⟩

/-- `IterateChangeSets` on a file. -/
def iterateFile (bs : List UInt8) : Iteration (Nat × List Pair) := iterate (bs.length + 1) bs

/-- `IterateVersions` (changeset.go 268-300). -/
def iterateV : (fuel : Nat) → List UInt8 → Iteration Nat
  | 0, _ => ⟨[], 0, some .other⟩
  | fuel + 1, bs =>
    match skipChangeSet bs with
    | .error e => ⟨[], 0, hideEof e⟩
    | .ok ((v, n), rest) =>
      let r := iterateV fuel rest
      ⟨v :: r.seen, n + r.offset, r.error⟩

def iterateVersions (bs : List UInt8) : Iteration Nat := iterateV (bs.length + 1) bs

/-- A file to which change sets were written one after the other. -/
def file (css : List (Nat × List Pair)) : List UInt8 := (css.map (fun c => writeChangeSet c.1 c.2)).flatten

end VersionDB
