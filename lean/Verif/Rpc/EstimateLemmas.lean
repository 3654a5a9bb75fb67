import Verif.Rpc.EstimateSpec

/-! # Lemmas about the search and the limits -/

namespace Estimate

theorem goesOn_iff {lo hi : Nat} (h : hi < word) (hl : lo < hi) :
    goesOn lo hi = true ↔ lo + 1 < hi := by
  unfold goesOn
  rw [decide_eq_true_iff, Nat.mod_eq_of_lt (Nat.lt_of_le_of_lt hl h)]

theorem middle_eq {lo hi : Nat} (h : 2 * hi < word) (hl : lo < hi) :
    middle lo hi = (hi + lo) / 2 := by
  unfold middle
  rw [Nat.mod_eq_of_lt (by omega)]

theorem passes_found (run : Nat → Run) (n hi : Nat) : passes run n (.found hi) = .found hi := by
  induction n with
  | zero => rfl
  | succ n ih => exact ih

theorem passes_gaveUp (run : Nat → Run) (n : Nat) : passes run n .gaveUp = .gaveUp := by
  induction n with
  | zero => rfl
  | succ n ih => exact ih

theorem passes_add (run : Nat → Run) (m n : Nat) (s : Search) :
    passes run (m + n) s = passes run n (passes run m s) := by
  induction m generalizing s with
  | zero => rw [Nat.zero_add]; rfl
  | succ m ih =>
    rw [Nat.succ_add]
    exact ih (pass run s)

/-- What stays true of the two ends of the search. -/
structure Brackets (run : Nat → Run) (lo hi lo' hi' : Nat) : Prop where
  order : lo' < hi'
  low : lo ≤ lo'
  high : hi' ≤ hi
  bottom : lo' = lo ∨ (¬ Works run lo')
  peak : hi' = hi ∨ Works run hi'

theorem verdict_fine {r : Run} (h : verdict r = some false) : r = .fine := by
  cases r <;> first | rfl | (exact nomatch h)

theorem verdict_failed {r : Run} (h : verdict r = some true) : r ≠ .fine := by
  intro e
  subst e
  exact nomatch h

/-- What a state of the search says. -/
def Good (run : Nat → Run) (lo hi : Nat) : Search → Prop
  | .searching a b => Brackets run lo hi a b
  | .found b => ∃ a, Brackets run lo hi a b ∧ b = a + 1
  | .gaveUp => ∃ g, lo < g ∧ g < hi ∧ run g = .refused

theorem pass_good {run : Nat → Run} {lo hi : Nat} (hh : 2 * hi < word) {s : Search}
    (hs : Good run lo hi s) : Good run lo hi (pass run s) := by
  cases s with
  | found b => exact hs
  | gaveUp => exact hs
  | searching a b =>
    have hb : Brackets run lo hi a b := hs
    have ho := hb.order
    have hhi := hb.high
    have hlo := hb.low
    have hw : b < word := by omega
    unfold pass
    dsimp only
    by_cases hg : goesOn a b = true
    · rw [if_pos hg]
      have hlt := (goesOn_iff hw ho).1 hg
      have hm := middle_eq (lo := a) (hi := b) (by omega) ho
      generalize hmid : middle a b = m at hm ⊢
      cases hv : verdict (run m) with
      | none =>
        refine ⟨m, by omega, by omega, ?_⟩
        generalize hr : run m = r at hv ⊢
        cases r <;> first | rfl | (exact nomatch hv)
      | some f =>
        cases f with
        | true =>
          exact ⟨by omega, by omega, hhi, Or.inr (verdict_failed hv), hb.peak⟩
        | false =>
          exact ⟨by omega, hlo, by omega, hb.bottom, Or.inr (verdict_fine hv)⟩
    · rw [if_neg hg]
      have hlt : ¬ a + 1 < b := fun h => hg ((goesOn_iff hw ho).2 h)
      exact ⟨a, hb, by omega⟩

theorem passes_good {run : Nat → Run} {lo hi : Nat} (hh : 2 * hi < word) (n : Nat) {s : Search}
    (hs : Good run lo hi s) : Good run lo hi (passes run n s) := by
  induction n generalizing s with
  | zero => exact hs
  | succ n ih => exact ih (pass_good hh hs)

theorem start_good (run : Nat → Run) {lo hi : Nat} (h : lo < hi) :
    Good run lo hi (.searching lo hi) :=
  ⟨h, Nat.le_refl _, Nat.le_refl _, Or.inl rfl, Or.inl rfl⟩

/-- The search halves the interval. -/
theorem ends_within {run : Nat → Run} (k : Nat) {lo hi : Nat} (hh : 2 * hi < word) (hl : lo < hi)
    (hd : hi - lo ≤ 2 ^ k) : ∀ a b, passes run (k + 1) (.searching lo hi) ≠ .searching a b := by
  induction k generalizing lo hi with
  | zero =>
    intro a b h
    have hd' : hi - lo ≤ 1 := hd
    have : goesOn lo hi ≠ true := fun h => by
      have := (goesOn_iff (by omega) hl).1 h
      omega
    have e : passes run (0 + 1) (.searching lo hi) = .found hi := by
      show pass run (.searching lo hi) = _
      unfold pass
      dsimp only
      rw [if_neg this]
    rw [e] at h
    exact nomatch h
  | succ k ih =>
    intro a b h
    have h1 : passes run (k + 1) (pass run (.searching lo hi)) = .searching a b := h
    rw [Nat.pow_succ] at hd
    unfold pass at h1
    dsimp only at h1
    by_cases hg : goesOn lo hi = true
    · rw [if_pos hg] at h1
      have hlt := (goesOn_iff (by omega) hl).1 hg
      have hm := middle_eq hh hl
      generalize middle lo hi = m at hm h1
      cases hv : verdict (run m) with
      | none =>
        rw [hv] at h1
        rw [show narrow lo hi m none = .gaveUp from rfl, passes_gaveUp] at h1
        exact nomatch h1
      | some f =>
        rw [hv] at h1
        cases f with
        | true => exact ih hh (by omega) (by omega) a b h1
        | false => exact ih (by omega) (by omega) (by omega) a b h1
    · rw [if_neg hg, passes_found] at h1
      exact nomatch h1

/-! ## The limits -/

theorem capped_le (q : Query) (h : txGas ≤ q.gasCap) : capped q ≤ q.gasCap := by
  unfold capped
  unfold txGas at h
  split <;> omega

theorem capped_le_asked (q : Query) : capped q ≤ asked q := by
  unfold capped
  split <;> omega

theorem top_le (q : Query) : top q ≤ capped q := by
  unfold top
  split
  · rename_i h
    unfold lowered at h
    rw [Bool.and_eq_true, Bool.and_eq_true, decide_eq_true_iff, decide_eq_true_iff,
      decide_eq_true_iff] at h
    omega
  · omega

theorem top_le_allowance (q : Query) (hw : q.gasCap < word) (hc : txGas ≤ q.gasCap)
    (hf : q.feeCap ≠ 0) : top q ≤ allowance q := by
  unfold top
  by_cases h : lowered q = true
  · rw [if_pos h]
    exact Nat.le_refl _
  · rw [if_neg h]
    unfold lowered at h
    rw [Bool.and_eq_true, Bool.and_eq_true, decide_eq_true_iff, decide_eq_true_iff,
      decide_eq_true_iff] at h
    have := capped_le q hc
    by_cases h1 : allowance q < word
    · have : ¬ allowance q < capped q := fun h2 => h ⟨⟨hf, h1⟩, h2⟩
      omega
    · omega

theorem le_allowance_iff (q : Query) (g : Nat) (hf : q.feeCap ≠ 0)
    (hv : q.value.getD 0 ≤ q.balance) :
    g ≤ allowance q ↔ g * q.feeCap + q.value.getD 0 ≤ q.balance := by
  unfold allowance
  rw [Nat.le_div_iff_mul_le (Nat.pos_of_ne_zero hf)]
  omega

/-- The limit of the search is the highest usable gas. -/
theorem usable_iff (q : Query) (g : Nat) (hw : q.gasCap < word) (hc : txGas ≤ q.gasCap)
    (hv : q.feeCap ≠ 0 → q.value.getD 0 ≤ q.balance) : Usable q g ↔ g ≤ top q := by
  constructor
  · intro h
    have h1 : g ≤ capped q := by
      have hcap := h.cap
      have hask : g ≤ asked q ∨ g ≤ q.gasCap ∧ asked q = q.gasCap := by
        unfold asked
        cases hgas : q.gas with
        | none =>
          dsimp only
          split
          · exact Or.inl (h.block (fun a ha => by rw [hgas] at ha; exact nomatch ha) (by assumption))
          · exact Or.inr ⟨hcap, rfl⟩
        | some a =>
          dsimp only
          by_cases hta : txGas ≤ a
          · rw [if_pos hta]
            exact Or.inl (h.own a hgas hta)
          · rw [if_neg hta]
            split
            · refine Or.inl (h.block (fun b hb => ?_) (by assumption))
              rw [hgas] at hb
              cases hb
              omega
            · exact Or.inr ⟨hcap, rfl⟩
      unfold capped
      split <;> omega
    unfold top
    by_cases hl : lowered q = true
    · rw [if_pos hl]
      have hf : q.feeCap ≠ 0 := by
        unfold lowered at hl
        rw [Bool.and_eq_true, Bool.and_eq_true, decide_eq_true_iff] at hl
        exact hl.1.1
      exact (le_allowance_iff q g hf (hv hf)).2 (h.funds hf)
    · rw [if_neg hl]
      exact h1
  · intro h
    have hcap : g ≤ capped q := Nat.le_trans h (top_le q)
    have hask := Nat.le_trans hcap (capped_le_asked q)
    refine ⟨Nat.le_trans hcap (capped_le q hc), ?_, ?_, ?_⟩
    · intro a ha hta
      unfold asked at hask
      rw [ha] at hask
      dsimp only at hask
      rw [if_pos hta] at hask
      exact hask
    · intro hn hb
      unfold asked at hask
      cases hgas : q.gas with
      | none =>
        rw [hgas] at hask
        dsimp only at hask
        rw [if_pos hb] at hask
        exact hask
      | some a =>
        rw [hgas] at hask
        dsimp only at hask
        have := hn a hgas
        rw [if_neg (by omega), if_pos hb] at hask
        exact hask
    · intro hf
      exact (le_allowance_iff q g hf (hv hf)).1
        (Nat.le_trans h (top_le_allowance q hw hc hf))

theorem funded_of_not_cannotSend {q : Query} (h : ¬ (q.feeCap ≠ 0 ∧ cannotSend q = true)) :
    q.feeCap ≠ 0 → q.value.getD 0 ≤ q.balance := by
  intro hf
  have hc : ¬ cannotSend q = true := fun hc => h ⟨hf, hc⟩
  unfold cannotSend at hc
  cases hv : q.value with
  | none => exact Nat.zero_le _
  | some v =>
    rw [hv] at hc
    dsimp only at hc
    rw [decide_eq_true_iff] at hc
    show v ≤ _
    omega

/-- Taking an answer apart. -/
theorem estimate_cases {n : Nat} {q : Query} {run : Nat → Run} {a : Answer}
    (h : estimate n q run = a) (h1 : a ≠ .capTooLow) (h2 : a ≠ .noFundsForValue)
    (h3 : a ≠ .noFunds) :
    txGas ≤ q.gasCap ∧ (q.feeCap ≠ 0 → q.value.getD 0 ≤ q.balance) ∧
      ¬ (lowered q = true ∧ allowance q < txGas) ∧
      conclude q run (passes run n (.searching (txGas - 1) (top q))) = a := by
  unfold estimate at h
  by_cases hc : q.gasCap < txGas
  · rw [if_pos hc] at h
    exact absurd h.symm h1
  · rw [if_neg hc] at h
    by_cases hv : q.feeCap ≠ 0 ∧ cannotSend q = true
    · rw [if_pos hv] at h
      exact absurd h.symm h2
    · rw [if_neg hv] at h
      by_cases hl : lowered q = true ∧ allowance q < txGas
      · rw [if_pos hl] at h
        exact absurd h.symm h3
      · rw [if_neg hl] at h
        exact ⟨by omega, funded_of_not_cannotSend hv, hl, h⟩

end Estimate
