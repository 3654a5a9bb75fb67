import Verif.Lib.Varint
/-!
# memiavl: opening the log and cutting a damaged tail

Models `/repo/helios-chain/memiavl/wal.go` (15-100) on the bytes of the last log segment, and the part of
`github.com/tidwall/wal` it depends on: `Open` reads the last segment entry by entry and reports `ErrCorrupt` when an
entry does not parse; entries are written as uvarint length followed by the bytes (binary format, which memiavl uses; the
JSON format, 76-88, is left out).
-/
namespace MemIAVL
open Varint

/-- `binary.Uvarint` (Go standard library): value and number of bytes; `none` is a result `n <= 0` (too short, or more than
64 bits).  `i` is the position of the byte. -/
def goUvarint (i : Nat) : List UInt8 → Option (Nat × Nat)
  | [] => none
  | b :: bs =>
    if i = 10 then none
    else if b.toNat < 128 then (if i = 9 ∧ b.toNat > 1 then none else some (b.toNat, 1))
    else (goUvarint (i + 1) bs).map fun (v, n) => (b.toNat - 128 + 128 * v, n + 1)

/-- `loadNextBinaryEntry` (wal.go 90-100): bytes taken by the first entry; `none` is `ErrCorrupt`. -/
def loadNext (data : List UInt8) : Option Nat :=
  match goUvarint 0 data with
  | none => none
  | some (size, n) => if data.length - n < size then none else some (n + size)

/-- The loop of `truncateCorruptedTail` (wal.go 54-69): position reached and remaining bytes.  `fuel` bounds the number of
rounds; every round takes at least one byte. -/
def walkEntries : Nat → List UInt8 → Nat × List UInt8
  | 0, data => (0, data)
  | fuel + 1, data =>
    if data = [] then (0, data)
    else match loadNext data with
      | none => (0, data)
      | some n => let (p, r) := walkEntries fuel (data.drop n); (n + p, r)

/-- `truncateCorruptedTail` (wal.go 48-74).  The test at line 70 compares the position with the length of what remains, not
with the length of the file. -/
def truncateCorruptedTail (data : List UInt8) : List UInt8 :=
  let (pos, rest) := walkEntries data.length data
  if pos ≠ rest.length then data.take pos else data

/-- The entries `wal.Open` finds in the segment; `none` is `ErrCorrupt`. -/
def openSegment : Nat → List UInt8 → Option (List (List UInt8))
  | 0, data => if data = [] then some [] else none
  | fuel + 1, data =>
    if data = [] then some []
    else match goUvarint 0 data with
      | none => none
      | some (size, n) =>
        if data.length - n < size then none
        else (openSegment fuel (data.drop (n + size))).map fun es => (data.drop n).take size :: es

/-- `OpenWAL` (wal.go 17-46) on the bytes of the last segment: the entries the log has afterwards. -/
def openWAL (data : List UInt8) : Option (List (List UInt8)) :=
  match openSegment data.length data with
  | some es => some es
  | none => let data := truncateCorruptedTail data; openSegment data.length data

end MemIAVL
