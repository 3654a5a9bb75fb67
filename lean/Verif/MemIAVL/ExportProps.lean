import Verif.MemIAVL.ExportLemmas
import Verif.MemIAVL.SnapshotProps
/-! # memiavl: export/import theorem C07 -/
namespace MemIAVL
open Varint Bytes

variable (H : Bytes → Bytes)

/-- **C07** Importing the stream exported from any reachable tree succeeds and writes byte for byte the snapshot files
the tree itself would write.  (No hypothesis on the hash function.) -/
theorem C07_import_export (version : Nat) (ops : List Op)
    (hfit : ∀ n, ((Tree.empty version).run ops).root = some n → ∀ v ∈ n.versions, v < 2 ^ 32) :
    let t := (Tree.empty version).run ops
    doImport H t.export = some (t.writeSnapshot H) := by
  intro t
  have hw : t.WF := Tree.WF_run _ ops (Tree.WF_empty version)
  cases hr : t.root with
  | none => simp [Tree.export, hr, doImport, Importer.addAll, Tree.writeSnapshot]
  | some n =>
    have := Importer.addAll_post H n (hw n hr).exact (hfit n hr) { w := Writer.new, leavesStack := [], nodeStack := [] }
      rfl rfl (Nat.le_refl _)
    simp [doImport, Tree.export_eq t n hr, this, Tree.writeSnapshot, hr]

/-- **C07** Hence importing the exported stream and opening the result gives back the tree node by node: keys,
values, versions, heights, sizes, hashes and shape. -/
theorem C07_import_reads_back (hlen : ∀ x, (H x).length = 32) (version : Nat) (ops : List Op) (n : Node)
    (hn : ((Tree.empty version).run ops).root = some n) (hfit : n.FitsFormat) :
    ∃ s p, doImport H ((Tree.empty version).run ops).export = some s ∧ s.openRoot = some (some p) ∧ Reads H s p n := by
  obtain ⟨p, h1, h2⟩ := C06_snapshot_reads_back H hlen version ops n hn hfit
  refine ⟨_, p, C07_import_export H version ops ?_, h1, h2⟩
  intro m hm; rw [hn] at hm; cases hm; exact hfit.versions

/-- **C07** Exporting from snapshot files (the sequential algorithm) yields the same stream as traversing the tree. -/
theorem C07_snapshot_export (hlen : ∀ x, (H x).length = 32) (version : Nat) (ops : List Op)
    (hfit : ∀ n, ((Tree.empty version).run ops).root = some n → n.FitsFormat) :
    let t := (Tree.empty version).run ops
    (t.writeSnapshot H).export = some t.export := by
  intro t
  have hw : t.WF := Tree.WF_run _ ops (Tree.WF_empty version)
  cases hr : t.root with
  | none => simp only [Tree.writeSnapshot, Tree.export, hr]; decide
  | some n =>
    obtain ⟨hf, hb⟩ := (hfit n hr).bounds (hw n hr)
    have ht : t = { version := t.version, root := some n } := by rw [← hr]
    rw [Tree.export_eq t n hr]
    rw [ht]
    exact export_writeSnapshot H hlen _ n hf (hw n hr) hb

/-- The exported stream determines the content: leaves in key order. -/
theorem C07_export_leaves (version : Nat) (ops : List Op) :
    let t := (Tree.empty version).run ops
    (t.export.filterMap fun e => e.value.map fun v => (e.key, v)) = t.toList := by
  intro t
  cases hr : t.root with
  | none => simp [Tree.export, Tree.toList, hr]
  | some n =>
    rw [Tree.export_eq t n hr]
    simp only [Tree.toList, hr]
    clear hr
    induction n with
    | leaf => simp [Node.post, Node.exported, Node.toList]
    | branch h s ver k l r ihl ihr => simp [Node.post, Node.exported, Node.toList, ihl, ihr]

example : ((Tree.empty 0).run exampleOps).export.length = 5 := by decide +kernel
example : doImport toyHash ((Tree.empty 0).run exampleOps).export =
    some (((Tree.empty 0).run exampleOps).writeSnapshot toyHash) := by decide +kernel

/-- Found weakness: a stream that starts with a branch makes the importer index below zero (panic in Go) instead of
returning an error; the model's `none` covers both. -/
theorem C07_importer_rejects_bad_stream (e : ExportNode) (h : e.height ≠ 0) : doImport H [e] = none := by
  by_cases hv : e.version ≥ 2 ^ 32
  · simp [doImport, Importer.addAll, Importer.add, hv]
  · simp [doImport, Importer.addAll, Importer.add, hv, h]

/-- **C07** The importer accepts exactly the streams of one tree (or the empty stream) with 32-bit versions: a stream cut
short, with items missing, repeated or out of place so that it no longer describes a single tree, is rejected. -/
theorem C07_import_accepts_iff (ns : List ExportNode) :
    doImport H ns ≠ none ↔ (ns = [] ∨ PostOrder ns) ∧ ∀ e ∈ ns, e.version < 2 ^ 32 := by
  rw [doImport_ne_none]
  constructor
  · rintro ⟨k, hk, h1⟩
    obtain ⟨h2, fs, rfl, rfl, h4⟩ := accept_forest hk
    refine ⟨?_, h2⟩
    rcases fs with _ | ⟨f, _ | ⟨g, fs⟩⟩
    · exact .inl rfl
    · right; simp only [List.flatten_cons, List.flatten_nil, List.append_nil]; exact h4 f (by simp)
    · simp at h1
  · rintro ⟨rfl | h, h2⟩
    · exact ⟨0, rfl, by omega⟩
    · exact ⟨1, accept_postOrder h h2 0, by omega⟩

example : PostOrder ((Tree.empty 0).run [.set [1] [7], .set [2] [8]]).export := by
  have h : ((Tree.empty 0).run [.set [1] [7], .set [2] [8]]).export =
      [⟨0, 1, [1], some [7]⟩] ++ [⟨0, 1, [2], some [8]⟩] ++ [⟨1, 1, [2], none⟩] := by decide +kernel
  rw [h]
  exact .branch _ _ _ (by decide) (.leaf _ rfl) (.leaf _ rfl)
/-- A stream of two trees is rejected. -/
example : doImport toyHash [⟨0, 1, [1], some [7]⟩, ⟨0, 1, [2], some [8]⟩] = none := by decide +kernel

end MemIAVL
