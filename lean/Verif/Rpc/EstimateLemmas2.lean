import Verif.Rpc.EstimateLemmas

/-! # Lemmas about answers, and about a search that never ends -/

namespace Estimate

theorem top_ge {q : Query} (h : ¬ (lowered q = true ∧ allowance q < txGas)) :
    txGas ≤ top q ∨ top q = capped q := by
  unfold top
  by_cases hl : lowered q = true
  · rw [if_pos hl]
    exact Or.inl (Nat.le_of_not_lt fun hlt => h ⟨hl, hlt⟩)
  · rw [if_neg hl]
    exact Or.inr rfl

theorem pass_small (run : Nat → Run) {hi : Nat} (h : hi < txGas) :
    pass run (.searching (txGas - 1) hi) = .found hi := by
  unfold pass
  dsimp only
  have : goesOn (txGas - 1) hi ≠ true := by
    unfold goesOn
    rw [Ne, decide_eq_true_iff]
    have : (txGas - 1 + 1) % word = txGas := by decide
    rw [this]
    omega
  rw [if_neg this]

/-- The ends of the search when it found something. -/
theorem found_brackets {q : Query} {run : Nat → Run} {n b : Nat} (hw : 2 * top q < word)
    (hs : passes run n (.searching (txGas - 1) (top q)) = .found b) (ht : txGas ≤ top q) :
    txGas ≤ b ∧ b ≤ top q ∧ (b = top q ∨ Works run b) ∧ (b = txGas ∨ ¬ Works run (b - 1)) := by
  have hl : txGas - 1 < top q := by
    unfold txGas at ht ⊢
    omega
  have hg := passes_good hw n (start_good run hl)
  rw [hs] at hg
  obtain ⟨a, hb, hab⟩ := hg
  have h0 : txGas - 1 + 1 = txGas := by decide
  have hlow := hb.low
  refine ⟨by omega, hb.high, hb.peak, ?_⟩
  rcases hb.bottom with h | h
  · left
    omega
  · right
    rw [hab]
    exact h

theorem found_small {q : Query} {run : Nat → Run} {n b : Nat}
    (hs : passes run n (.searching (txGas - 1) (top q)) = .found b) (ht : top q < txGas) :
    b = top q := by
  cases n with
  | zero => exact nomatch hs
  | succ n =>
    have : passes run n (pass run (.searching (txGas - 1) (top q))) = .found b := hs
    rw [pass_small run ht, passes_found] at this
    cases this
    rfl

/-- The search is over after 64 passes. -/
theorem over {q : Query} {run : Nat → Run} (hw : 2 * top q < word) :
    ∀ a b, passes run 64 (.searching (txGas - 1) (top q)) ≠ .searching a b := by
  intro a b h
  by_cases ht : top q < txGas
  · have : passes run 63 (pass run (.searching (txGas - 1) (top q))) = .searching a b := h
    rw [pass_small run ht, passes_found] at this
    exact nomatch this
  · have hl : txGas - 1 < top q := by
      unfold txGas at ht ⊢
      omega
    have hw' : word = 2 * 2 ^ 63 := by decide
    exact ends_within 63 hw hl (by omega) a b h

theorem passes_stable {run : Nat → Run} {s : Search} {m : Nat}
    (h : ∀ a b, passes run m s ≠ .searching a b) (n : Nat) (hn : m ≤ n) :
    passes run n s = passes run m s := by
  obtain ⟨k, rfl⟩ := Nat.le.dest hn
  rw [passes_add]
  cases hp : passes run m s with
  | searching a b => exact absurd hp (h a b)
  | found b => exact passes_found run k b
  | gaveUp => exact passes_gaveUp run k

theorem gas_of_conclude {q : Query} {run : Nat → Run} {b g : Nat}
    (h : conclude q run (.found b) = .gas g) : g = b ∧ (b = capped q → Works run b) := by
  unfold conclude at h
  dsimp only at h
  by_cases hbc : b = capped q
  · rw [if_pos hbc] at h
    unfold Works
    generalize run b = r at h ⊢
    cases r <;> first | (injection h with e; exact ⟨e.symm, fun _ => rfl⟩) | (exact nomatch h)
  · rw [if_neg hbc] at h
    injection h with e
    exact ⟨e.symm, fun he => absurd he hbc⟩

/-- The highest 64-bit number. -/
def huge : Nat := 18446744073709551615

/-- The lower ends a failing search with the highest upper end goes through. -/
def ring : List Nat :=
  [20999, 10499, 5249, 2624, 1311, 655, 327, 163, 81, 40, 19, 9, 4] ++
    (List.range 64).map fun k => 2 ^ k - 1

theorem ring_closed : ∀ l ∈ ring, goesOn l huge = true ∧ middle l huge ∈ ring := by
  decide +kernel

theorem ring_forever {run : Nat → Run} (hr : ∀ g, run g = .reverted) (n : Nat) :
    ∀ l ∈ ring, ∃ l', passes run n (.searching l huge) = .searching l' huge := by
  induction n with
  | zero => exact fun l _ => ⟨l, rfl⟩
  | succ n ih =>
    intro l hl
    obtain ⟨h1, h2⟩ := ring_closed l hl
    have e : pass run (.searching l huge) = .searching (middle l huge) huge := by
      unfold pass
      dsimp only
      rw [if_pos h1, hr]
      rfl
    show ∃ l', passes run n (pass run (.searching l huge)) = _
    rw [e]
    exact ih _ h2

end Estimate
