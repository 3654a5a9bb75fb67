import Verif.MemIAVL.Props
/-! Helper lemmas: versions of leaves and branches. -/
set_option linter.unusedSimpArgs false
namespace MemIAVL
namespace Node

/-- Leaves with their versions. -/
def leaves : Node → List (Key × Val × Nat)
  | leaf k v ver => [(k, v, ver)]
  | branch _ _ _ _ l r => l.leaves ++ r.leaves

theorem mem_toList_of_leaves {n : Node} {p} (h : p ∈ n.leaves) : (p.1, p.2.1) ∈ n.toList := by
  induction n with
  | leaf k v ver => simp [leaves, toList] at *; simp [h]
  | branch _ _ _ _ l r ihl ihr =>
    simp only [leaves, toList, List.mem_append] at *
    exact h.imp ihl ihr

@[simp] theorem leaves_mk (v k l r) : (mk v k l r).leaves = l.leaves ++ r.leaves := rfl

theorem leaves_rotateRight (v) (n : Node) : (rotateRight v n).leaves = n.leaves := by
  unfold rotateRight; split <;> simp [leaves]

theorem leaves_rotateLeft (v) (n : Node) : (rotateLeft v n).leaves = n.leaves := by
  unfold rotateLeft; split <;> simp [leaves]

theorem height_leaf_le (k : Key) (v : Val) (ver : Nat) : (leaf k v ver).height = 0 := rfl

/-- Rebalancing never re-versions a leaf: only branches are rotated. -/
theorem leaves_reBalance (v) (n : Node) : (reBalance v n).leaves = n.leaves := by
  unfold reBalance
  split
  · rfl
  · rename_i h s ver k l r
    repeat' split
    · exact leaves_rotateRight _ _
    · rw [leaves_rotateRight]
      cases l with
      | leaf => rename_i h1 h2; simp only [calcBalance] at h2; omega
      | branch => simp [leaves, leaves_rotateLeft, setVersion]
    · exact leaves_rotateLeft _ _
    · rw [leaves_rotateLeft]
      cases r with
      | leaf => rename_i h1 h2 h3; simp only [calcBalance] at h3; omega
      | branch => simp [leaves, leaves_rotateRight, setVersion]
    · rfl

theorem mem_leaves_setRec (key value version) (n : Node) (h : n.Ordered) (p) :
    p ∈ (n.setRec key value version).1.leaves ↔ p = (key, value, version) ∨ (p ∈ n.leaves ∧ p.1 ≠ key) := by
  induction n with
  | leaf k v ver =>
    unfold setRec
    split
    · rename_i hlt
      have : k ≠ key := by grind
      simp [leaves]; grind
    · split
      · have : k ≠ key := by grind
        simp [leaves]; grind
      · have : k = key := by grind
        simp [leaves]; grind
  | branch hh s ver k l r ihl ihr =>
    obtain ⟨hl, hr, h1, h2, h3⟩ := h
    have ihl := ihl hl
    have ihr := ihr hr
    have hL : ∀ p ∈ l.leaves, p.1 < k := fun p hp => h1 _ (mem_toList_of_leaves hp)
    have hR : ∀ p ∈ r.leaves, k ≤ p.1 := fun p hp => h2 _ (mem_toList_of_leaves hp)
    unfold setRec
    split
    · have hne : ∀ p ∈ r.leaves, p.1 ≠ key := fun p hp => by have := hR p hp; grind
      have goal : p ∈ (setRec key value version l).1.leaves ++ r.leaves ↔
          p = (key, value, version) ∨ (p ∈ l.leaves ++ r.leaves ∧ p.1 ≠ key) := by
        simp only [List.mem_append, ihl]; have := hne p; grind
      cases hres : (setRec key value version l).2 <;>
        simp only [hres, Bool.false_eq_true, ↓reduceIte, leaves_reBalance, leaves_mk, leaves] <;> exact goal
    · have hne : ∀ p ∈ l.leaves, p.1 ≠ key := fun p hp => by have := hL p hp; grind
      have goal : p ∈ l.leaves ++ (setRec key value version r).1.leaves ↔
          p = (key, value, version) ∨ (p ∈ l.leaves ++ r.leaves ∧ p.1 ≠ key) := by
        simp only [List.mem_append, ihr]; have := hne p; grind
      cases hres : (setRec key value version r).2 <;>
        simp only [hres, Bool.false_eq_true, ↓reduceIte, leaves_reBalance, leaves_mk, leaves] <;> exact goal

/-- Leaves of an optional node (proof device). -/
def optLeaves : Option Node → List (Key × Val × Nat)
  | none => []
  | some n => n.leaves

theorem mem_leaves_removeRec (key version) (n : Node) (h : n.Ordered) (p) :
    p ∈ optLeaves (n.removeRec key version).2.1 ↔ (p ∈ n.leaves ∧ p.1 ≠ key) := by
  induction n with
  | leaf k v ver =>
    unfold removeRec
    split
    · simp [optLeaves, leaves]; grind
    · simp [optLeaves, leaves]; grind
  | branch hh s ver k l r ihl ihr =>
    have hspecl := removeRec_spec key version l h.1
    have hspecr := removeRec_spec key version r h.2.1
    obtain ⟨hl, hr, h1, h2, h3⟩ := h
    have ihl := ihl hl
    have ihr := ihr hr
    have hL : ∀ p ∈ l.leaves, p.1 < k := fun p hp => h1 _ (mem_toList_of_leaves hp)
    have hR : ∀ p ∈ r.leaves, k ≤ p.1 := fun p hp => h2 _ (mem_toList_of_leaves hp)
    unfold removeRec
    split
    · have hne : p ∈ r.leaves → p.1 ≠ key := fun hp => by have := hR p hp; grind
      split
      · rename_i heq
        rw [heq] at hspecl
        have := (hspecl.notFound rfl).1
        have hne2 : p ∈ l.leaves → p.1 ≠ key := fun hp => this _ (mem_toList_of_leaves hp)
        simp only [optLeaves, leaves, List.mem_append]; grind
      · rename_i heq
        rw [heq] at ihl
        simp only [optLeaves, leaves, List.mem_append, List.not_mem_nil, false_iff] at *; grind
      · rename_i heq
        rw [heq] at ihl
        simp only [optLeaves, leaves, List.mem_append, leaves_reBalance, leaves_mk] at *; grind
    · have hne : p ∈ l.leaves → p.1 ≠ key := fun hp => by have := hL p hp; grind
      split
      · rename_i heq
        rw [heq] at hspecr
        have := (hspecr.notFound rfl).1
        have hne2 : p ∈ r.leaves → p.1 ≠ key := fun hp => this _ (mem_toList_of_leaves hp)
        simp only [optLeaves, leaves, List.mem_append]; grind
      · rename_i heq
        rw [heq] at ihr
        simp only [optLeaves, leaves, List.mem_append, List.not_mem_nil, false_iff] at *; grind
      · rename_i heq
        rw [heq] at ihr
        simp only [optLeaves, leaves, List.mem_append, leaves_reBalance, leaves_mk] at *; grind

/-- Every branch is at least as young as what is below it. -/
def VersionsGrow : Node → Prop
  | leaf .. => True
  | branch _ _ ver _ l r => l.version ≤ ver ∧ r.version ≤ ver ∧ l.VersionsGrow ∧ r.VersionsGrow

/-- The root version bounds all versions (proof device). -/
structure VG (b : Nat) (n : Node) : Prop where
  grow : n.VersionsGrow
  le : n.version ≤ b

theorem VG.rotateRight {v : Nat} {n : Node} (h : VG v n) (hn : n.version = v) : VG v (Node.rotateRight v n) := by
  obtain ⟨h, hle⟩ := h
  unfold Node.rotateRight
  split
  · obtain ⟨h1, h2, ⟨h3, h4, h5, h6⟩, h7⟩ := h
    have hn : _ = v := hn
    subst hn
    refine ⟨⟨Nat.le_trans h3 h1, Nat.le_refl _, h5, Nat.le_trans h4 h1, h2, h6, h7⟩, Nat.le_refl _⟩
  · exact ⟨h, hle⟩

theorem VG.rotateLeft {v : Nat} {n : Node} (h : VG v n) (hn : n.version = v) : VG v (Node.rotateLeft v n) := by
  obtain ⟨h, hle⟩ := h
  unfold Node.rotateLeft
  split
  · obtain ⟨h1, h2, h3, ⟨h4, h5, h6, h7⟩⟩ := h
    have hn : _ = v := hn
    subst hn
    exact ⟨⟨Nat.le_refl _, Nat.le_trans h5 h2, ⟨h1, Nat.le_trans h4 h2, h3, h6⟩, h7⟩, Nat.le_refl _⟩
  · exact ⟨h, hle⟩

theorem VG.setVersion {v : Nat} {n : Node} (h : VG v n) : VG v (n.setVersion v) ∧ (n.setVersion v).version = v := by
  obtain ⟨h, hle⟩ := h
  cases n with
  | leaf => exact ⟨⟨trivial, Nat.le_refl v⟩, rfl⟩
  | branch _ _ ver _ l r =>
    exact ⟨⟨⟨Nat.le_trans h.1 hle, Nat.le_trans h.2.1 hle, h.2.2⟩, Nat.le_refl v⟩, rfl⟩

theorem VG.reBalance {v : Nat} {k l r} (hl : VG v l) (hr : VG v r) : VG v (Node.reBalance v (Node.mk v k l r)) := by
  have h0 : VG v (Node.mk v k l r) := ⟨⟨hl.le, hr.le, hl.grow, hr.grow⟩, Nat.le_refl v⟩
  unfold Node.reBalance Node.mk
  simp only
  repeat' split
  · exact h0.rotateRight rfl
  · refine VG.rotateRight ⟨⟨?_, hr.le, ?_, hr.grow⟩, Nat.le_refl v⟩ rfl
    · exact (hl.setVersion.1.rotateLeft hl.setVersion.2).le
    · exact (hl.setVersion.1.rotateLeft hl.setVersion.2).grow
  · exact h0.rotateLeft rfl
  · refine VG.rotateLeft ⟨⟨hl.le, ?_, hl.grow, ?_⟩, Nat.le_refl v⟩ rfl
    · exact (hr.setVersion.1.rotateRight hr.setVersion.2).le
    · exact (hr.setVersion.1.rotateRight hr.setVersion.2).grow
  · exact h0

theorem VG.setRec {v : Nat} (key value) {n : Node} (h : VG v n) : VG v (n.setRec key value v).1 := by
  induction n with
  | leaf k v' ver =>
    have := h.le
    simp only [Node.version] at this
    unfold Node.setRec
    repeat' split
    · exact ⟨⟨Nat.le_refl v, this, trivial, trivial⟩, Nat.le_refl v⟩
    · exact ⟨⟨this, Nat.le_refl v, trivial, trivial⟩, Nat.le_refl v⟩
    · exact ⟨trivial, Nat.le_refl v⟩
  | branch ht s ver k l r ihl ihr =>
    have hle := h.le
    obtain ⟨h1, h2, h3, h4⟩ := h.grow
    simp only [Node.version] at hle
    have hl : VG v l := ⟨h3, by omega⟩
    have hr : VG v r := ⟨h4, by omega⟩
    have ihl := ihl hl
    have ihr := ihr hr
    unfold Node.setRec
    split
    · cases hres : (Node.setRec key value v l).2 <;> simp only [hres, Bool.false_eq_true, ↓reduceIte]
      · exact VG.reBalance ihl hr
      · exact ⟨⟨ihl.le, hr.le, ihl.grow, h4⟩, Nat.le_refl v⟩
    · cases hres : (Node.setRec key value v r).2 <;> simp only [hres, Bool.false_eq_true, ↓reduceIte]
      · exact VG.reBalance hl ihr
      · exact ⟨⟨hl.le, ihr.le, h3, ihr.grow⟩, Nat.le_refl v⟩

theorem VG.removeRec {v : Nat} (key) {n : Node} (h : VG v n) : ∀ m, (n.removeRec key v).2.1 = some m → VG v m := by
  induction n with
  | leaf k v' ver =>
    unfold Node.removeRec
    split <;> simp
    exact h
  | branch ht s ver k l r ihl ihr =>
    have hle := h.le
    obtain ⟨h1, h2, h3, h4⟩ := h.grow
    simp only [Node.version] at hle
    have hl : VG v l := ⟨h3, by omega⟩
    have hr : VG v r := ⟨h4, by omega⟩
    have ihl := ihl hl
    have ihr := ihr hr
    unfold Node.removeRec
    split
    · split
      · rintro m ⟨rfl⟩; exact h
      · rintro m ⟨rfl⟩; exact hr
      · rename_i heq
        rw [heq] at ihl
        rintro m ⟨rfl⟩; exact VG.reBalance (ihl _ rfl) hr
    · split
      · rintro m ⟨rfl⟩; exact h
      · rintro m ⟨rfl⟩; exact hl
      · rename_i heq
        rw [heq] at ihr
        rintro m ⟨rfl⟩; exact VG.reBalance hl (ihr _ rfl)

end Node
end MemIAVL
