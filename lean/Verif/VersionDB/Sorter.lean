import Verif.VersionDB.ChangeSet
/-!
# External sorting of change sets

Models helios-chain/versiondb/extsort (sort.go, merge.go, delta_encoding.go) and the item encoding of
helios-chain/versiondb/client/convert_to_sst.go. Snappy compression and temporary files are left out: a chunk file is the list of its bytes.
-/
namespace VersionDB
open Bytes Varint

abbrev Item := List UInt8

/-- `encodeSorterItem` (convert_to_sst.go 205-228): key, version, flag, value, length of the key. -/
def encodeItem (version : Nat) (p : Pair) : Item :=
  p.key ++ le 8 version ++ (if p.delete then [1] else 0 :: p.value) ++ le 4 p.key.length

/-- The length of the key, from the last four bytes (convert_to_sst.go 246, 270-271). -/
def keyLen (item : Item) : Nat := unle (item.drop (item.length - 4))

/-- `item[:keyLen]`. -/
def keyOf (item : Item) : List UInt8 := item.take (keyLen item)

/-- The eight bytes of the version, `item[keyLen : keyLen+8]`. -/
def tsOf (item : Item) : List UInt8 := (item.drop (keyLen item)).take 8

/-- `decodeSorterItem` (convert_to_sst.go 243-264): the bytes of the version, and the pair. `none` is an index out of range. -/
def decodeItem (item : Item) : Option (List UInt8 × Pair) :=
  if item.length < 4 ∨ item.length < keyLen item + 8 then none
  else match item[keyLen item + 8]? with
    | none => none
    | some flag =>
      if flag = 1 then some (tsOf item, ⟨true, keyOf item, []⟩)
      else if item.length - 4 < keyLen item + 9 then none
      else some (tsOf item, ⟨false, keyOf item, (item.drop (keyLen item + 9)).take (item.length - 4 - (keyLen item + 9))⟩)

/-- `compareSorterItem` (convert_to_sst.go 267-283): smaller key first; for the same key the larger version first. -/
def less (a b : Item) : Bool :=
  if keyOf a ≠ keyOf b then decide (keyOf a < keyOf b) else decide (unle (tsOf b) < unle (tsOf a))

/-! ### Delta encoding -/

/-- `diffOffset` (delta_encoding.go 74-89). -/
def diffOffset : List UInt8 → List UInt8 → Nat
  | a :: as, b :: bs => if a = b then diffOffset as bs + 1 else 0
  | _, _ => 0

/-- `DeltaEncoder.Write` (delta_encoding.go 17-36) for one item after `last`. -/
def deltaWrite (last item : Item) : List UInt8 :=
  putUvarint (diffOffset last item) ++ putUvarint (item.length - diffOffset last item) ++ item.drop (diffOffset last item)

/-- A chunk file: all items, each after the one before (sort.go 233-239). -/
def deltaFile : Item → List Item → List UInt8
  | _, [] => []
  | last, x :: xs => deltaWrite last x ++ deltaFile x xs

/-- `DeltaDecoder.Read` (delta_encoding.go 47-67). `dd.last[:shared]` is out of range when `shared` is larger. -/
def deltaRead (last : Item) : Reader Item := fun bs =>
  match readUvarint 0 bs with
  | .error e => .error e
  | .ok (shared, bs) =>
    match readUvarint 0 bs with
    | .error e => .error e
    | .ok (nonShared, bs) =>
      if last.length < shared then .error .other
      else match readFull nonShared bs with
        | .error e => .error e
        | .ok (tail, bs) => .ok (last.take shared ++ tail, bs)

/-- All items of the stream of a chunk file (sort.go 178-186): the end of the file ends the stream. -/
def deltaItems : (fuel : Nat) → Item → List UInt8 → Except Err (List Item)
  | 0, _, _ => .error .other
  | fuel + 1, last, bs =>
    match deltaRead last bs with
    | .error .eof => .ok []
    | .error e => .error e
    | .ok (x, bs) =>
      match deltaItems fuel x bs with
      | .error e => .error e
      | .ok xs => .ok (x :: xs)

/-- The stream of a chunk file. -/
def stream (bs : List UInt8) : Except Err (List Item) := deltaItems (bs.length + 1) [] bs

/-! ### Chunks and merging -/

/-- `Feed` and `Finalize` (sort.go 99-113, 146-152): the items are cut into chunks; a chunk ends when its size, with four bytes more for each
item, reaches the limit. -/
def chunks (limit : Nat) : (current : List Item) → (size : Nat) → List Item → List (List Item)
  | current, size, [] => if 0 < size then [current] else []
  | current, size, x :: xs =>
    if limit ≤ size + (x.length + 4) then (current ++ [x]) :: chunks limit [] 0 xs
    else chunks limit (current ++ [x]) (size + (x.length + 4)) xs

/-- Sorted by a `less` function as `sort.Slice` leaves it: nothing is less than something before it. -/
def SortedBy {α : Type} (lt : α → α → Bool) (l : List α) : Prop := l.Pairwise (fun a b => lt b a = false)

/-- `MultiWayMerge` (merge.go): each `Next` yields the value of a least entry and advances its stream, until all streams are exhausted. Which
one of several least entries is at the top of Go's heap is left open; that the top is a least entry is what `container/heap` provides. -/
inductive Merged {α : Type} (lt : α → α → Bool) : List (List α) → List α → Prop where
  | done (ss : List (List α)) (h : ∀ s ∈ ss, s = []) : Merged lt ss []
  | next (before after : List (List α)) (x : α) (xs out : List α)
      (least : ∀ s ∈ before ++ after, ∀ y ys, s = y :: ys → lt y x = false)
      (rest : Merged lt (before ++ xs :: after) out) : Merged lt (before ++ (x :: xs) :: after) (x :: out)

/-- The two lists have the same length and their elements are related in order. -/
inductive All2 {α β : Type} (R : α → β → Prop) : List α → List β → Prop where
  | nil : All2 R [] []
  | cons {a : α} {b : β} {as : List α} {bs : List β} (h : R a b) (t : All2 R as bs) : All2 R (a :: as) (b :: bs)

/-- One run of the external sorter: the items are cut into chunks; each chunk is sorted in some way (`sort.Slice` is not stable) and written
to a file; the files are collected in the order in which the goroutines finish; their streams are merged. -/
def Sorts (limit : Nat) (items out : List Item) : Prop :=
  ∃ (sorted : List (List Item)) (files : List (List UInt8)) (streams : List (List Item)),
    All2 (fun c s => s.Perm c ∧ SortedBy less s) (chunks limit [] 0 items) sorted ∧
    files.Perm (sorted.map (deltaFile [])) ∧
    All2 (fun f s => stream f = .ok s) files streams ∧
    Merged less streams out

end VersionDB
