/-!
# Stable sorting

Models the effect of Go's `sort.SliceStable` (any stable sort gives the same list).  Structural recursion, so that
closed terms evaluate in the kernel.
-/
namespace StableSort
variable {α : Type}

/-- Put `x` before the first element it may precede. -/
def insertBy (le : α → α → Bool) (x : α) : List α → List α
  | [] => [x]
  | y :: ys => if le x y then x :: y :: ys else y :: insertBy le x ys

/-- Stable insertion sort. -/
def sortBy (le : α → α → Bool) (l : List α) : List α := l.foldr (insertBy le) []

theorem insertBy_perm (le : α → α → Bool) (x : α) (l : List α) : (insertBy le x l).Perm (x :: l) := by
  induction l with
  | nil => exact .refl _
  | cons y ys ih =>
    simp only [insertBy]
    split
    · exact .refl _
    · exact (ih.cons y).trans (.swap x y ys)

theorem sortBy_perm (le : α → α → Bool) (l : List α) : (sortBy le l).Perm l := by
  induction l with
  | nil => exact .refl _
  | cons x l ih => exact (insertBy_perm le x _).trans (ih.cons x)

theorem insertBy_pairwise {le : α → α → Bool} (ht : ∀ a b c, le a b = true → le b c = true → le a c = true)
    (hl : ∀ a b, (le a b || le b a) = true) (x : α) {l : List α} (h : l.Pairwise (fun a b => le a b = true)) :
    (insertBy le x l).Pairwise (fun a b => le a b = true) := by
  induction l with
  | nil => simp [insertBy]
  | cons y ys ih =>
    rw [List.pairwise_cons] at h
    simp only [insertBy]
    split
    · rename_i hxy
      rw [List.pairwise_cons, List.pairwise_cons]
      refine ⟨?_, h⟩
      intro z hz
      rcases List.mem_cons.1 hz with rfl | hz
      · exact hxy
      · exact ht _ _ _ hxy (h.1 z hz)
    · rename_i hxy
      rw [List.pairwise_cons]
      refine ⟨?_, ih h.2⟩
      intro z hz
      rcases List.mem_cons.1 ((insertBy_perm le x ys).mem_iff.1 hz) with rfl | hz
      · have := hl z y
        simpa [hxy] using this
      · exact h.1 z hz

theorem sortBy_pairwise {le : α → α → Bool} (ht : ∀ a b c, le a b = true → le b c = true → le a c = true)
    (hl : ∀ a b, (le a b || le b a) = true) (l : List α) : (sortBy le l).Pairwise (fun a b => le a b = true) := by
  induction l with
  | nil => exact .nil
  | cons x l ih => exact insertBy_pairwise ht hl x ih

end StableSort
