import Verif.Rpc.EstimateLemmas2

/-!
# The estimate is the least gas that works, unless the funds are short

`Works run g` says that the transaction runs through with gas limit `g`, `Usable q g` that the
caller may use and can pay for `g` (EstimateSpec.lean).
-/

namespace Estimate

/-- A transaction that needs 53 000 gas. -/
def needs53 : Nat → Run := fun g =>
  if g < 21000 then .intrinsic else if g < 53000 then .ranOut else .fine

theorem needs53_monotone : Monotone needs53 := by
  intro g g' hle hw
  unfold Works needs53 at *
  by_cases h1 : g < 21000
  · rw [if_pos h1] at hw
    exact nomatch hw
  · rw [if_neg h1] at hw
    by_cases h2 : g < 53000
    · rw [if_pos h2] at hw
      exact nomatch hw
    · rw [if_neg (by omega), if_neg (by omega)]

/-- A query with funds for a million gas at a fee of two, sending five. -/
def rich : Query := ⟨25000000, none, 500000, 2, 2000005, some 5⟩

/-- The same query with funds for 40 000 gas only. -/
def poor : Query := ⟨25000000, none, 500000, 2, 80005, some 5⟩

/-- **Answer.** With a cap below `2^63` every query is answered after at most 64 passes of the
search, that is after at most 64 trial runs, and more passes do not change the answer. -/
theorem estimate_answers (q : Query) (run : Nat → Run) (hw : 2 * q.gasCap < word) :
    estimate 64 q run ≠ .pending ∧ ∀ n, 64 ≤ n → estimate n q run = estimate 64 q run := by
  unfold estimate
  by_cases hc : q.gasCap < txGas
  · exact ⟨by rw [if_pos hc]; exact (fun h => nomatch h), fun n _ => by rw [if_pos hc, if_pos hc]⟩
  · rw [if_neg hc]
    have hc' : txGas ≤ q.gasCap := Nat.le_of_not_lt hc
    have htop : 2 * top q < word := by
      have h1 := capped_le q hc'
      have h2 := top_le q
      omega
    have hover := over (run := run) htop
    constructor
    · by_cases hv : q.feeCap ≠ 0 ∧ cannotSend q = true
      · rw [if_pos hv]
        exact fun h => nomatch h
      · rw [if_neg hv]
        by_cases hl : lowered q = true ∧ allowance q < txGas
        · rw [if_pos hl]
          exact fun h => nomatch h
        · rw [if_neg hl]
          cases hp : passes run 64 (.searching (txGas - 1) (top q)) with
          | searching a b => exact absurd hp (hover a b)
          | gaveUp => exact fun h => nomatch h
          | found b =>
            unfold conclude
            dsimp only
            by_cases hb : b = capped q
            · rw [if_pos hb]
              cases run b <;> exact fun h => nomatch h
            · rw [if_neg hb]
              exact fun h => nomatch h
    · intro n hn
      rw [passes_stable hover n hn, if_neg hc]

example : estimate 64 rich needs53 = .gas 53000 ∧ 2 * rich.gasCap < word := by decide +kernel

/-- **Bounds.** An estimate is a gas limit the caller may use and can pay for. -/
theorem estimate_usable {n : Nat} {q : Query} {run : Nat → Run} {g : Nat}
    (h : estimate n q run = .gas g) (hw : 2 * q.gasCap < word) : Usable q g := by
  obtain ⟨hc, hv, hl, hcon⟩ := estimate_cases h (fun e => nomatch e) (fun e => nomatch e)
    (fun e => nomatch e)
  have htop : 2 * top q < word := by
    have h1 := capped_le q hc
    have h2 := top_le q
    omega
  rw [usable_iff q g (by omega) hc hv]
  cases hp : passes run n (.searching (txGas - 1) (top q)) with
  | searching a b => rw [hp] at hcon; exact nomatch hcon
  | gaveUp => rw [hp] at hcon; exact nomatch hcon
  | found b =>
    rw [hp] at hcon
    have hb : b ≤ top q := by
      by_cases ht : txGas ≤ top q
      · exact (found_brackets htop hp ht).2.1
      · exact Nat.le_of_eq (found_small hp (Nat.lt_of_not_le ht))
    have hg : g = b := (gas_of_conclude hcon).1
    rw [hg]
    exact hb

example : ∃ g, estimate 64 rich needs53 = .gas g ∧ g * 2 + 5 ≤ 2000005 :=
  ⟨53000, by decide +kernel⟩

/-- **Least.** If more gas never hurts, no gas limit of at least a transfer's gas and below the
estimate works. -/
theorem estimate_least {n : Nat} {q : Query} {run : Nat → Run} {g : Nat}
    (h : estimate n q run = .gas g) (hw : 2 * q.gasCap < word) (hm : Monotone run) :
    ∀ g', txGas ≤ g' → g' < g → ¬ Works run g' := by
  intro g' h1 h2 hg'
  obtain ⟨hc, hv, hl, hcon⟩ := estimate_cases h (fun e => nomatch e) (fun e => nomatch e)
    (fun e => nomatch e)
  have htop : 2 * top q < word := by
    have h1 := capped_le q hc
    have h2 := top_le q
    omega
  cases hp : passes run n (.searching (txGas - 1) (top q)) with
  | searching a b => rw [hp] at hcon; exact nomatch hcon
  | gaveUp => rw [hp] at hcon; exact nomatch hcon
  | found b =>
    rw [hp] at hcon
    have hg : g = b := (gas_of_conclude hcon).1
    by_cases ht : txGas ≤ top q
    · rcases (found_brackets htop hp ht).2.2.2 with e | e
      · omega
      · exact e (hm g' (b - 1) (by omega) hg')
    · have := found_small hp (Nat.lt_of_not_le ht)
      omega

example : estimate 64 rich needs53 = .gas 53000 ∧ 2 * rich.gasCap < word ∧ Monotone needs53 ∧
    ¬ Works needs53 52999 :=
  ⟨by decide +kernel, by decide +kernel, needs53_monotone, by decide +kernel⟩

/-- **Works, as far as it goes.** The full property is: the transaction runs through with the
estimated gas limit. It is proved when no fee is offered or the sender could pay for one more unit
of gas, and fails without that (`estimate_may_not_work`). -/
theorem estimate_works_partial {n : Nat} {q : Query} {run : Nat → Run} {g : Nat}
    (h : estimate n q run = .gas g) (hw : 2 * q.gasCap < word)
    (hf : q.feeCap = 0 ∨ (g + 1) * q.feeCap + q.value.getD 0 ≤ q.balance) : Works run g := by
  obtain ⟨hc, hv, hl, hcon⟩ := estimate_cases h (fun e => nomatch e) (fun e => nomatch e)
    (fun e => nomatch e)
  have htop : 2 * top q < word := by
    have h1 := capped_le q hc
    have h2 := top_le q
    omega
  cases hp : passes run n (.searching (txGas - 1) (top q)) with
  | searching a b => rw [hp] at hcon; exact nomatch hcon
  | gaveUp => rw [hp] at hcon; exact nomatch hcon
  | found b =>
    rw [hp] at hcon
    obtain ⟨hgb, htest⟩ := gas_of_conclude hcon
    by_cases hbc : b = capped q
    · rw [hgb]
      exact htest hbc
    · subst hgb
      have hpeak : g = top q ∨ Works run g := by
        by_cases ht : txGas ≤ top q
        · exact (found_brackets htop hp ht).2.2.1
        · exact Or.inl (found_small hp (Nat.lt_of_not_le ht))
      rcases hpeak with e | e
      · have hlow : lowered q = true := by
          by_cases hlow : lowered q = true
          · exact hlow
          · unfold top at e
            rw [if_neg hlow] at e
            exact absurd e hbc
        have hfee : q.feeCap ≠ 0 := by
          unfold lowered at hlow
          rw [Bool.and_eq_true, Bool.and_eq_true, decide_eq_true_iff] at hlow
          exact hlow.1.1
        rcases hf with hf | hf
        · exact absurd hf hfee
        · have := (le_allowance_iff q (g + 1) hfee (hv hfee)).2 hf
          have : top q = allowance q := by
            unfold top
            rw [if_pos hlow]
          omega
      · exact e

example : estimate 64 rich needs53 = .gas 53000 ∧ 2 * rich.gasCap < word ∧
    (53000 + 1) * rich.feeCap + rich.value.getD 0 ≤ rich.balance := by decide +kernel

/-- **Found.** If more gas never hurts and the node does not refuse the transaction outright, then a
transaction some usable gas limit (of at least a transfer's gas) works for gets an estimate, and the
estimate works and is the least one. -/
theorem estimate_found {q : Query} {run : Nat → Run} (hw : 2 * q.gasCap < word)
    (hm : Monotone run) (hr : NeverRefused run) {g : Nat} (h1 : txGas ≤ g) (h2 : Usable q g)
    (h3 : Works run g) :
    ∃ m, estimate 64 q run = .gas m ∧ Works run m ∧ Usable q m ∧
      ∀ g', txGas ≤ g' → g' < m → ¬ Works run g' := by
  have hcap := h2.cap
  have hc : ¬ q.gasCap < txGas := by omega
  have hv : ¬ (q.feeCap ≠ 0 ∧ cannotSend q = true) := by
    rintro ⟨hf, hs⟩
    have hfu := h2.funds hf
    have : 1 ≤ g * q.feeCap :=
      Nat.mul_le_mul (Nat.le_trans (by decide : 1 ≤ txGas) h1) (Nat.pos_of_ne_zero hf)
    unfold cannotSend at hs
    cases hval : q.value with
    | none => rw [hval] at hs; exact nomatch hs
    | some v =>
      rw [hval] at hs hfu
      dsimp only at hs
      rw [decide_eq_true_iff] at hs
      have : g * q.feeCap + v ≤ q.balance := hfu
      omega
  have hbound := (usable_iff q g (by omega) (by omega) (funded_of_not_cannotSend hv)).1 h2
  have hl : ¬ (lowered q = true ∧ allowance q < txGas) := by
    rintro ⟨hl, ha⟩
    have : top q = allowance q := by
      unfold top
      rw [if_pos hl]
    omega
  have htop : 2 * top q < word := by
    have h1 := capped_le q (by omega)
    have h2 := top_le q
    omega
  have htw : Works run (top q) := hm g _ hbound h3
  have hest : ∃ m, estimate 64 q run = .gas m ∧ Works run m := by
    have he : estimate 64 q run =
        conclude q run (passes run 64 (.searching (txGas - 1) (top q))) := by
      unfold estimate
      rw [if_neg hc, if_neg hv, if_neg hl]
    rw [he]
    have hgood := passes_good htop 64
      (start_good run (lo := txGas - 1) (hi := top q) (by unfold txGas at h1 ⊢; omega))
    cases hp : passes run 64 (.searching (txGas - 1) (top q)) with
    | searching a b => exact absurd hp (over htop a b)
    | gaveUp =>
      rw [hp] at hgood
      obtain ⟨x, _, _, hx⟩ := hgood
      exact absurd hx (hr x)
    | found b =>
      have hpk := (found_brackets htop hp (by omega)).2.2.1
      have hwb : Works run b := by
        rcases hpk with e | e
        · rw [e]; exact htw
        · exact e
      refine ⟨b, ?_, hwb⟩
      unfold conclude
      dsimp only
      by_cases hbc : b = capped q
      · rw [if_pos hbc, show run b = .fine from hwb]
        rfl
      · rw [if_neg hbc]
  obtain ⟨m, he, hwm⟩ := hest
  exact ⟨m, he, hwm, estimate_usable he hw, estimate_least he hw hm⟩

example : txGas ≤ 60000 ∧ Works needs53 60000 ∧ Usable rich 60000 := by
  refine ⟨by decide, by decide +kernel, ?_⟩
  exact (usable_iff rich 60000 (by decide +kernel) (by decide +kernel)
    (fun _ => by decide +kernel)).2 (by decide +kernel)

/-- **Refusals.** If more gas never hurts, a query answered with a revert, another machine error or
"gas required exceeds allowance" is about a transaction no usable gas limit works for. -/
theorem estimate_refusal {n : Nat} {q : Query} {run : Nat → Run}
    (h : estimate n q run = .reverted ∨ estimate n q run = .broken ∨
      estimate n q run = .needsMore)
    (hw : 2 * q.gasCap < word) (hm : Monotone run) : ∀ g, Usable q g → ¬ Works run g := by
  intro g hu hg
  obtain ⟨a, ha, hcs⟩ : ∃ a, estimate n q run = a ∧ (a = .reverted ∨ a = .broken ∨ a = .needsMore) :=
    ⟨_, rfl, h⟩
  obtain ⟨hc, hv, hl, hcon⟩ := estimate_cases ha
    (by rcases hcs with e | e | e <;> rw [e] <;> exact fun e => nomatch e)
    (by rcases hcs with e | e | e <;> rw [e] <;> exact fun e => nomatch e)
    (by rcases hcs with e | e | e <;> rw [e] <;> exact fun e => nomatch e)
  have hgt := (usable_iff q g (by omega) hc hv).1 hu
  have hbad : ¬ Works run (capped q) := by
    intro hwk
    cases hp : passes run n (.searching (txGas - 1) (top q)) with
    | searching x y => rw [hp] at hcon; rcases hcs with e | e | e <;> rw [e] at hcon <;> exact nomatch hcon
    | gaveUp => rw [hp] at hcon; rcases hcs with e | e | e <;> rw [e] at hcon <;> exact nomatch hcon
    | found b =>
      rw [hp] at hcon
      unfold conclude at hcon
      dsimp only at hcon
      by_cases hbc : b = capped q
      · rw [if_pos hbc, hbc, show run (capped q) = .fine from hwk] at hcon
        rcases hcs with e | e | e <;> rw [e] at hcon <;> exact nomatch hcon
      · rw [if_neg hbc] at hcon
        rcases hcs with e | e | e <;> rw [e] at hcon <;> exact nomatch hcon
  exact hbad (hm g _ (Nat.le_trans hgt (top_le q)) hg)

example : estimate 64 rich (fun _ => .reverted) = .reverted ∧
    Monotone (fun _ : Nat => Run.reverted) :=
  ⟨by decide +kernel, fun _ _ _ h => h⟩

/-- **Refusals for funds.** A query answered with insufficient funds comes from a sender who cannot
pay for the gas of a transfer together with the value. -/
theorem estimate_no_funds {n : Nat} {q : Query} {run : Nat → Run}
    (h : estimate n q run = .noFunds ∨ estimate n q run = .noFundsForValue) :
    ¬ txGas * q.feeCap + q.value.getD 0 ≤ q.balance := by
  intro hp
  unfold estimate at h
  by_cases hc : q.gasCap < txGas
  · rw [if_pos hc] at h
    rcases h with h | h <;> exact nomatch h
  · rw [if_neg hc] at h
    by_cases hv : q.feeCap ≠ 0 ∧ cannotSend q = true
    · have h1 : 1 ≤ txGas * q.feeCap :=
        Nat.mul_le_mul (by decide : 1 ≤ txGas) (Nat.pos_of_ne_zero hv.1)
      have hs := hv.2
      unfold cannotSend at hs
      cases hval : q.value with
      | none => rw [hval] at hs; exact nomatch hs
      | some v =>
        rw [hval] at hs hp
        dsimp only at hs
        rw [decide_eq_true_iff] at hs
        have : txGas * q.feeCap + v ≤ q.balance := hp
        omega
    · rw [if_neg hv] at h
      by_cases hl : lowered q = true ∧ allowance q < txGas
      · have hf : q.feeCap ≠ 0 := by
          have := hl.1
          unfold lowered at this
          rw [Bool.and_eq_true, Bool.and_eq_true, decide_eq_true_iff] at this
          exact this.1.1
        have := (le_allowance_iff q txGas hf (funded_of_not_cannotSend hv hf)).2 hp
        omega
      · rw [if_neg hl] at h
        unfold conclude at h
        cases hs : passes run n (.searching (txGas - 1) (top q)) with
        | searching x y => rw [hs] at h; rcases h with h | h <;> exact nomatch h
        | gaveUp => rw [hs] at h; rcases h with h | h <;> exact nomatch h
        | found b =>
          rw [hs] at h
          dsimp only at h
          by_cases hbc : b = capped q
          · rw [if_pos hbc] at h
            cases hr : run b <;> rw [hr] at h <;> rcases h with h | h <;> exact nomatch h
          · rw [if_neg hbc] at h
            rcases h with h | h <;> exact nomatch h

example : estimate 64 ⟨25000000, none, 10000000, 2, 40005, some 5⟩ needs53 = .noFunds ∧
    estimate 64 ⟨25000000, none, 10000000, 2, 5, some 5⟩ needs53 = .noFundsForValue := by
  decide +kernel

/-- **An untested estimate.** Whenever the sender's funds bind and none of the gas limits they can
pay for works, the query still answers with an estimate: all the gas the funds pay for. -/
theorem short_funds_give_untested_estimate {q : Query} {run : Nat → Run}
    (hw : 2 * q.gasCap < word) (hc : txGas ≤ q.gasCap) (hr : NeverRefused run)
    (hno : ∀ g, Usable q g → ¬ Works run g)
    (hf : q.feeCap ≠ 0) (hfunds : txGas * q.feeCap + q.value.getD 0 ≤ q.balance)
    (hbind : (q.balance - q.value.getD 0) / q.feeCap < capped q) :
    estimate 64 q run = .gas ((q.balance - q.value.getD 0) / q.feeCap) := by
  have hle : q.value.getD 0 ≤ q.balance := by omega
  have hal : txGas ≤ allowance q := (le_allowance_iff q txGas hf hle).2 hfunds
  have hcap := capped_le q hc
  have hlow : lowered q = true := by
    unfold lowered
    rw [Bool.and_eq_true, Bool.and_eq_true, decide_eq_true_iff, decide_eq_true_iff,
      decide_eq_true_iff]
    unfold allowance
    omega
  have htop : top q = allowance q := by
    unfold top
    rw [if_pos hlow]
  have hv : ¬ (q.feeCap ≠ 0 ∧ cannotSend q = true) := by
    rintro ⟨_, hs⟩
    have h1 : 1 ≤ txGas * q.feeCap :=
      Nat.mul_le_mul (by decide : 1 ≤ txGas) (Nat.pos_of_ne_zero hf)
    unfold cannotSend at hs
    cases hval : q.value with
    | none => rw [hval] at hs; exact nomatch hs
    | some v =>
      rw [hval] at hs hfunds
      dsimp only at hs
      rw [decide_eq_true_iff] at hs
      have : txGas * q.feeCap + v ≤ q.balance := hfunds
      omega
  have hal2 : allowance q < capped q := hbind
  have ht : 2 * top q < word := by omega
  unfold estimate
  rw [if_neg (by omega), if_neg hv, if_neg (by omega)]
  have hgood := passes_good ht 64
    (start_good run (lo := txGas - 1) (hi := top q) (by unfold txGas at hal ⊢; omega))
  cases hp : passes run 64 (.searching (txGas - 1) (top q)) with
  | searching a b => exact absurd hp (over ht a b)
  | gaveUp =>
    rw [hp] at hgood
    obtain ⟨x, _, _, hx⟩ := hgood
    exact absurd hx (hr x)
  | found b =>
    obtain ⟨_, hbt, hpk, _⟩ := found_brackets ht hp (by omega)
    have hb : b = top q := by
      rcases hpk with e | e
      · exact e
      · exact absurd e (hno b ((usable_iff q b (by omega) hc (fun _ => hle)).2 hbt))
    unfold conclude
    dsimp only
    rw [if_neg (by omega), hb, htop]
    rfl

/-- A transaction that always reverts gets an estimate if the sender's funds are short, and one that
needs 53 000 gas is estimated at 40 000. -/
theorem estimate_may_not_work :
    estimate 64 poor (fun _ => .reverted) = .gas 40000 ∧
    estimate 64 rich (fun _ => .reverted) = .reverted ∧
    estimate 64 poor needs53 = .gas 40000 ∧ ¬ Works needs53 40000 := by
  decide +kernel

/-- **Endless.** With a cap of `2^64 - 1` and a gas argument of `2^64 - 1` the search for a
transaction that always reverts never ends: the sum of its ends wraps around. -/
theorem endless_search (n : Nat) :
    estimate n ⟨huge, some huge, 0, 0, 0, none⟩ (fun _ => .reverted) = .pending := by
  have ht : top ⟨huge, some huge, 0, 0, 0, none⟩ = huge := by decide +kernel
  obtain ⟨l, hl⟩ := ring_forever (run := fun _ => .reverted) (fun _ => rfl) n (txGas - 1)
    (by decide +kernel)
  unfold estimate
  rw [if_neg (by decide +kernel), if_neg (by decide +kernel), if_neg (by decide +kernel), ht, hl]
  rfl

end Estimate
