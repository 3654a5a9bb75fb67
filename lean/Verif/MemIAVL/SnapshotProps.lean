import Verif.MemIAVL.SnapshotLemmas2
/-! # memiavl: snapshot theorem C06 -/
namespace MemIAVL
open Varint Bytes

variable (H : Bytes → Bytes)

/-- **C06** Writing the snapshot of any reachable non-empty tree and opening it succeeds; the opened root
reads as exactly the written tree, node by node (`Reads`), so also with the same root hash. -/
theorem C06_snapshot_reads_back (hlen : ∀ x, (H x).length = 32) (version : Nat) (ops : List Op) (n : Node)
    (hn : ((Tree.empty version).run ops).root = some n) (hfit : n.FitsFormat) :
    ∃ p, (((Tree.empty version).run ops).writeSnapshot H).openRoot = some (some p) ∧
      Reads H (((Tree.empty version).run ops).writeSnapshot H) p n := by
  have hw := Tree.WF_run _ ops (Tree.WF_empty version) n hn
  obtain ⟨hf, hb⟩ := hfit.bounds hw
  generalize (Tree.empty version).run ops = t at hn
  obtain ⟨ver, root⟩ := t
  simp only at hn; subst hn
  exact ⟨_, openRoot_writeSnapshot H hlen ver n,
    (located_writeSnapshot H ver n).reads H hlen hf hw.exact hw.ordered hb⟩

/-- **C06** The empty tree is written as, and read back from, an empty snapshot. -/
theorem C06_empty_snapshot (t : Tree) (h : t.root = none) : (t.writeSnapshot H).openRoot = some none := by
  simp only [Tree.writeSnapshot, h]; decide

/-- **C06** Queries on the opened snapshot (binary search over the leaf array) give exactly the content of the
history and the rank of the key; selection by index gives the pair at that position. -/
theorem C06_snapshot_queries (hlen : ∀ x, (H x).length = 32) (version : Nat) (ops : List Op) (n : Node)
    (hn : ((Tree.empty version).run ops).root = some n) (hfit : n.FitsFormat) :
    let t := (Tree.empty version).run ops
    ∃ p, (t.writeSnapshot H).openRoot = some (some p) ∧
      (∀ key, (t.writeSnapshot H).get p key =
        some (contentAfter ops key, (t.toList.filter (fun q => q.1 < key)).length)) ∧
      (∀ i, i < 2 ^ 32 → (t.writeSnapshot H).getByIndex p i = some t.toList[i]?) := by
  intro t
  have hwt := Tree.WF_run _ ops (Tree.WF_empty version)
  have hw := hwt n hn
  obtain ⟨hf, hb⟩ := hfit.bounds hw
  have ht : t = { version := t.version, root := some n } := by rw [← hn]
  have h1 : (t.writeSnapshot H).openRoot = some (some (refOf 0 0 n)) := by
    rw [ht]; exact openRoot_writeSnapshot H hlen _ n
  have hloc : Located H (t.writeSnapshot H) 0 0 0 n := by rw [ht]; exact located_writeSnapshot H _ n
  refine ⟨_, h1, fun key => ?_, fun i hi => ?_⟩
  · rw [hloc.get H hlen hf hw.exact hw.ordered hb key]
    have := C03_getWithIndex version ops key
    simp only [Tree.getWithIndex, hn, Prod.mk.injEq] at this
    exact congrArg some (Prod.ext this.2 this.1)
  · rw [hloc.getByIndex H hlen hf hw.exact hb i (by omega), Node.getByIndex_spec i n hw.exact]
    simp only [Tree.toList, t, hn]

/-- A toy 32-byte "hash" for the examples. -/
def toyHash (x : Bytes) : Bytes := le 32 (x.foldl (fun a b => a * 257 + b.toNat + 1) 7)

/-- A non-trivial history whose tree meets the hypotheses. -/
def exampleOps : List Op := [.set [1] [10], .set [2] [20, 21], .save, .set [3] [], .set [0, 5] [1], .remove [2], .save]

example : ∃ n, ((Tree.empty 0).run exampleOps).root = some n ∧ n.size = 3 ∧ n.FitsFormat := by
  refine ⟨_, rfl, by decide, by decide, by decide, by decide, by decide⟩

example : ∀ x, (toyHash x).length = 32 := fun _ => le_length _ _

/-- The snapshot of the tree with keys `[1]`, `[2]`, `[3]`: leaf 0 on the left, a branch over leaves 1 and 2 on the
right. -/
def wrapSnap : Snap := ((Tree.empty 0).run [.set [1] [10], .set [2] [20], .set [3] [30], .save]).writeSnapshot toyHash

/-- Found disagreement (not reachable through `Tree.GetByIndex` on a freshly opened snapshot, whose root starts at leaf 0,
but through a mutated tree that keeps a persisted right child): on a persisted branch that does not start at leaf 0
the sum `startLeaf + leafIndex` wraps, and an out-of-range index returns the unrelated leaf 0 instead of nothing. -/
theorem C06_persisted_getByIndex_wraps :
    ∃ p, Reads toyHash wrapSnap p (.branch 1 2 1 [3] (.leaf [2] [20] 1) (.leaf [3] [30] 1)) ∧
      wrapSnap.getByIndex p (2 ^ 32 - 1) = some (some ([1], [10])) := by
  refine ⟨⟨false, 0⟩, ?_, by decide +kernel⟩
  refine ⟨by decide, by decide +kernel, by decide +kernel, by decide +kernel, by decide +kernel, by decide +kernel,
    ⟨⟨true, 1⟩, by decide +kernel, ?_⟩, ⟨⟨true, 2⟩, by decide +kernel, ?_⟩⟩ <;> unfold Reads <;> decide +kernel

end MemIAVL
