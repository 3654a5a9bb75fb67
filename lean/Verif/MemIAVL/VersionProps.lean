import Verif.MemIAVL.VersionLemmas
/-!
# C42: versions recorded in the tree

The version field goes into the node hash, so it is part of consensus.
-/
namespace MemIAVL

/-- Specification: current version and, for every key, its value and the version its last write belongs to.  A write
belongs to the version after the last saved one. -/
structure Written where
  version : Nat
  last : Key → Option (Val × Nat)

/-- Effect of one operation.  Saving fails at the largest 32-bit version. -/
def Written.step (w : Written) : Op → Written
  | .set k v => { w with last := fun k' => if k' = k then some (v, w.version + 1) else w.last k' }
  | .remove k => { w with last := fun k' => if k' = k then none else w.last k' }
  | .save => if w.version = 2 ^ 32 - 1 then w else { w with version := w.version + 1 }

/-- Leaves of a tree with their versions. -/
def Tree.leaves (t : Tree) : List (Key × Val × Nat) :=
  match t.root with
  | none => []
  | some n => n.leaves

theorem leaves_step (t : Tree) (w : Written) (op : Op) (hwf : t.WF) (hv : w.version = t.version)
    (h : ∀ k v ver, (k, v, ver) ∈ t.leaves ↔ w.last k = some (v, ver)) :
    (w.step op).version = (t.step op).version ∧
    ∀ k v ver, (k, v, ver) ∈ (t.step op).leaves ↔ (w.step op).last k = some (v, ver) := by
  cases op with
  | set k' v' =>
    refine ⟨hv, fun k v ver => ?_⟩
    have h := h k v ver
    simp only [Written.step, Tree.step, Tree.leaves, Tree.set] at *
    cases hr : t.root with
    | none => simp only [hr] at h; simp [Node.leaves]; grind
    | some n =>
      simp only [hr] at h ⊢
      rw [Node.mem_leaves_setRec _ _ _ _ (hwf n hr).ordered]
      grind
  | remove k' =>
    refine ⟨hv, fun k v ver => ?_⟩
    have h := h k v ver
    simp only [Written.step, Tree.step, Tree.leaves, Tree.remove] at *
    cases hr : t.root with
    | none => simp only [hr] at h ⊢; grind
    | some n =>
      simp only [hr] at h
      have := Node.mem_leaves_removeRec k' (t.version + 1) n (hwf n hr).ordered (k, v, ver)
      cases hm : (n.removeRec k' (t.version + 1)).2.1 <;> simp only [hm, Node.optLeaves] at this <;>
        simp only [hm] <;> grind
  | save =>
    have hroot := t.root_saveVersion
    simp only [Written.step, Tree.step, Tree.leaves, Tree.saveVersion] at *
    rw [hv]
    split <;> rename_i hmax
    · simp only [hmax, ↓reduceIte, Option.getD_none]
      refine ⟨by omega, h⟩
    · simp only [hmax, ↓reduceIte, Option.getD_some]
      exact ⟨trivial, h⟩

/-- C42.  After any history starting with the empty tree at version `v0`, the stored leaves are exactly the keys
present, each with its last value and the version its last write belongs to. -/
theorem C42_leaf_versions (v0 : Nat) (ops : List Op) (k : Key) (v : Val) (ver : Nat) :
    (k, v, ver) ∈ ((Tree.empty v0).run ops).leaves ↔
      (ops.foldl Written.step { version := v0, last := fun _ => none }).last k = some (v, ver) := by
  suffices ∀ (t : Tree) (w : Written), t.WF → w.version = t.version →
      (∀ k v ver, (k, v, ver) ∈ t.leaves ↔ w.last k = some (v, ver)) →
      ∀ k v ver, (k, v, ver) ∈ (t.run ops).leaves ↔ (ops.foldl Written.step w).last k = some (v, ver) from
    this _ _ (Tree.WF_empty v0) rfl (by simp [Tree.leaves, Tree.empty]) k v ver
  induction ops with
  | nil => exact fun t w _ _ h => h
  | cons op ops ih =>
    intro t w hwf hv h
    have := leaves_step t w op hwf hv h
    exact ih _ _ (t.WF_step op hwf) this.1 this.2

/-- C42.  After any history every branch is at least as young as its children, and no node is younger than the version
being built. -/
theorem C42_branch_versions (v0 : Nat) (ops : List Op) (n : Node) (h : ((Tree.empty v0).run ops).root = some n) :
    n.VersionsGrow ∧ n.version ≤ ((Tree.empty v0).run ops).version + 1 := by
  suffices ∀ t : Tree, (∀ n, t.root = some n → Node.VG (t.version + 1) n) →
      ∀ n, (t.run ops).root = some n → Node.VG ((t.run ops).version + 1) n from by
    have := this (Tree.empty v0) (by simp [Tree.empty]) n h
    exact ⟨this.grow, this.le⟩
  clear h n
  induction ops with
  | nil => exact fun t h => h
  | cons op ops ih =>
    intro t h
    refine ih _ ?_
    cases op with
    | set k v =>
      intro n hn
      simp only [Tree.step, Tree.set, Option.some.injEq] at hn ⊢
      cases hr : t.root with
      | none => simp only [hr, Option.some.injEq] at hn; subst hn; exact ⟨trivial, Nat.le_refl _⟩
      | some m => simp only [hr, Option.some.injEq] at hn; subst hn; exact (h m hr).setRec k v
    | remove k =>
      intro n hn
      simp only [Tree.step, Tree.remove] at hn ⊢
      cases hr : t.root with
      | none => simp [hr] at hn
      | some m => simp only [hr] at hn; exact (h m hr).removeRec k n hn
    | save =>
      intro n hn
      simp only [Tree.step] at hn ⊢
      rw [Tree.root_saveVersion] at hn
      have := h n hn
      refine ⟨this.grow, Nat.le_trans this.le ?_⟩
      unfold Tree.saveVersion
      split
      · exact Nat.le_refl _
      · exact Nat.le_succ _

/-- A history with rewrites across versions: key 2 was last written for version 3, key 1 for version 1. -/
example : ([2], [22], 3) ∈ ((Tree.empty 0).run
    [.set [1] [10], .set [2] [20], .save, .set [3] [30], .save, .set [2] [22], .remove [3]]).leaves ∧
    ([1], [10], 1) ∈ ((Tree.empty 0).run
    [.set [1] [10], .set [2] [20], .save, .set [3] [30], .save, .set [2] [22], .remove [3]]).leaves := by
  decide +kernel

end MemIAVL
