import Verif.VersionDB.ChangeSetLemmas
/-!
# Change set files (C60)
-/
namespace VersionDB

/-- Reading what was written gives it back, leaves what follows, and counts the bytes right. -/
theorem read_write {v : Nat} {cs : List Pair} (h : CsOk (v, cs)) (rest : List UInt8) :
    readChangeSet (writeChangeSet v cs ++ rest) = .ok ((v, (writeChangeSet v cs).length, cs), rest) := read_write_aux h rest

/-- Skipping finds the same version and the same end. -/
theorem skip_write {v : Nat} {cs : List Pair} (h : CsOk (v, cs)) (rest : List UInt8) :
    skipChangeSet (writeChangeSet v cs ++ rest) = .ok ((v, (writeChangeSet v cs).length), rest) := skip_write_aux h rest

/-- Iterating over a whole file shows every version with its pairs, in order, without error, up to the end. -/
theorem iterate_whole {css : List (Nat × List Pair)} (h : ∀ c ∈ css, CsOk c) :
    iterateFile (file css) = ⟨css, (file css).length, none⟩ := by
  have ht : (file css).take (file css).length = file css := List.take_length
  obtain ⟨k, k1, k2, k3, k4, k5, k6⟩ := iterate_cut h (file css).length ((file css).length + 1) (Nat.le_refl _) (Nat.lt_succ_self _)
  rw [ht] at k2 k3 k6
  have hk : k = css.length := by
    apply Nat.le_antisymm k1
    apply Nat.le_of_not_lt
    intro hlt
    have hlt2 := k5 hlt
    have : (file css).length = (file (css.take (k + 1))).length + (file (css.drop (k + 1))).length := by
      conv => lhs; rw [← List.take_append_drop (k + 1) css]
      unfold file
      rw [List.map_append, List.flatten_append, List.length_append]
    omega
  subst hk
  rw [List.take_length] at k2 k3 k6
  show iterate _ _ = _
  cases hi : iterate ((file css).length + 1) (file css) with
  | mk seen offset error =>
    rw [hi] at k2 k3 k6
    dsimp only at k2 k3 k6
    rw [k2, k3, k6 rfl]

/-- A file cut off at any byte, as a crash may leave it: exactly the versions whose bytes are all there are shown, with all their pairs, and
the offset reported is where the last of them ends. -/
theorem iterate_cut_off {css : List (Nat × List Pair)} (h : ∀ c ∈ css, CsOk c) {n : Nat} (hn : n ≤ (file css).length) :
    ∃ k, k ≤ css.length ∧ (iterateFile ((file css).take n)).seen = css.take k ∧
      (iterateFile ((file css).take n)).offset = (file (css.take k)).length ∧ (file (css.take k)).length ≤ n ∧
      (k < css.length → n < (file (css.take (k + 1))).length) ∧
      (n = (file (css.take k)).length → (iterateFile ((file css).take n)).error = none) := by
  have hl : ((file css).take n).length = n := by rw [List.length_take]; omega
  have := iterate_cut h n (n + 1) hn (Nat.lt_succ_self _)
  unfold iterateFile
  rw [hl]
  exact this

/-- Iterating over versions only shows the same versions and the same offset, also on a file that was cut off. -/
theorem versions_agree {css : List (Nat × List Pair)} (h : ∀ c ∈ css, CsOk c) {n : Nat} (hn : n ≤ (file css).length) :
    (iterateVersions ((file css).take n)).seen = (iterateFile ((file css).take n)).seen.map (·.1) ∧
    (iterateVersions ((file css).take n)).offset = (iterateFile ((file css).take n)).offset := by
  have hl : ((file css).take n).length = n := by rw [List.length_take]; omega
  obtain ⟨k, k1, k2, k3, k4, k5, _⟩ := iterate_cut h n (n + 1) hn (Nat.lt_succ_self _)
  obtain ⟨j, j1, j2, j3, j4, j5, _⟩ := iterateV_cut h n (n + 1) hn (Nat.lt_succ_self _)
  have mono : ∀ a b, a < b → b ≤ css.length → (file (css.take (a + 1))).length ≤ (file (css.take b)).length := by
    intro a b hab hb
    have : css.take b = css.take (a + 1) ++ (css.take b).drop (a + 1) := by
      conv => lhs; rw [← List.take_append_drop (a + 1) (css.take b)]
      rw [List.take_take, Nat.min_eq_left hab]
    rw [this]
    unfold file
    rw [List.map_append, List.flatten_append, List.length_append]
    omega
  have hkj : k = j := by
    rcases Nat.lt_trichotomy k j with hlt | he | hlt
    · have h1 := k5 (by omega)
      have h2 := mono k j hlt j1
      omega
    · exact he
    · have h1 := j5 (by omega)
      have h2 := mono j k hlt k1
      omega
  subst hkj
  unfold iterateFile iterateVersions
  rw [hl]
  exact ⟨by rw [j2, k2], by rw [j3, k3]⟩

/-! ### Concrete cases -/

def demo : List (Nat × List Pair) :=
  [(1, [⟨false, [1, 2], [3]⟩, ⟨true, [4], []⟩]), (2, []), (300, [⟨false, [5], List.replicate 200 7⟩])]

instance (p : Pair) : Decidable p.Ok := by unfold Pair.Ok; infer_instance
instance (c : Nat × List Pair) : Decidable (CsOk c) := by unfold CsOk; infer_instance

example : ∀ c ∈ demo, CsOk c := by decide +kernel

/-- The header of version 1 with seven bytes to come. -/
def header17 : List UInt8 := [1, 0, 0, 0, 0, 0, 0, 0, 7, 0, 0, 0, 0, 0, 0, 0]

/-- A file cut off between two pairs of a version is taken for a complete file: no error is reported. -/
theorem cut_between_pairs_is_silent :
    iterateFile (header17 ++ [0, 1, 5, 1, 6]) = ⟨[], 0, none⟩ ∧
    iterateFile (header17 ++ [0, 1, 5, 1, 6, 1, 0]) = ⟨[(1, [⟨false, [5], [6]⟩, ⟨true, [], []⟩])], 23, none⟩ := by decide +kernel

end VersionDB
