import Verif.Vesting.ScheduleProps
/-!
# Properties of clawback vesting accounts (C35)
-/
namespace Vesting

variable {n : Nat}

/-- A well-formed account: both schedules go forward, end before the account's end and release the original amount. -/
structure Good (a : Account n) : Prop where
  lockF : Forward a.lockup
  vestF : Forward a.vesting
  lockEnd : a.start + totalLength a.lockup ≤ a.stop
  vestEnd : a.start + totalLength a.vesting ≤ a.stop
  lockSum : ∀ i, totalAmount a.lockup i = a.original i
  vestSum : ∀ i, totalAmount a.vesting i = a.original i

theorem eq_spec (a b : Coins n) : Coins.eq a b = true ↔ ∀ i, a i = b i := by
  unfold Coins.eq Coins.le
  simp only [Bool.and_eq_true, decide_eq_true_eq]
  constructor
  · intro h i
    have := h.1 i; have := h.2 i
    omega
  · intro h
    exact ⟨fun i => Nat.le_of_eq (h i), fun i => Nat.le_of_eq (h i).symm⟩

/-- `Validate` accepts exactly the well-formed accounts that end after their start, when lengths are not negative. -/
theorem validate_iff {a : Account n} (h1 : Forward a.lockup) (h2 : Forward a.vesting) :
    a.validate = true ↔ Good a ∧ a.start < a.stop := by
  unfold Account.validate
  simp only [Bool.and_eq_true, decide_eq_true_eq, eq_spec]
  constructor
  · intro ⟨⟨⟨⟨g1, g2⟩, g3⟩, g4⟩, g5⟩
    exact ⟨⟨h1, h2, g2, g4, g3, g5⟩, g1⟩
  · intro ⟨g, g1⟩
    exact ⟨⟨⟨⟨g1, g.lockEnd⟩, g.lockSum⟩, g.vestEnd⟩, g.vestSum⟩

/-! ## What is vested, unlocked and locked -/

/-- The vested coins of a good account are those of the events of the vesting schedule so far, and nothing before its
start. -/
theorem vested_spec {a : Account n} (g : Good a) (t : Int) (i : Fin n) :
    a.vested t i = if a.start < t then released t i a.start a.vesting else 0 := by
  unfold Account.vested
  split
  · exact read_is_released g.vestF g.vestEnd (fun i => (g.vestSum i).symm) (by assumption) i
  · exact read_early (by omega) i

theorem unlocked_spec {a : Account n} (g : Good a) (t : Int) (i : Fin n) :
    a.unlocked t i = if a.start < t then released t i a.start a.lockup else 0 := by
  unfold Account.unlocked
  split
  · exact read_is_released g.lockF g.lockEnd (fun i => (g.lockSum i).symm) (by assumption) i
  · exact read_early (by omega) i

theorem vested_le {a : Account n} (g : Good a) (t : Int) (i : Fin n) : a.vested t i ≤ a.original i := by
  rw [vested_spec g, ← g.vestSum]
  split
  · exact released_le
  · exact Nat.zero_le _

theorem unlocked_le {a : Account n} (g : Good a) (t : Int) (i : Fin n) : a.unlocked t i ≤ a.original i := by
  rw [unlocked_spec g, ← g.lockSum]
  split
  · exact released_le
  · exact Nat.zero_le _

/-- Vested and unlocked coins never decrease. -/
theorem vested_mono {a : Account n} (g : Good a) {t t' : Int} (h : t ≤ t') (i : Fin n) :
    a.vested t i ≤ a.vested t' i ∧ a.unlocked t i ≤ a.unlocked t' i := by
  rw [vested_spec g, vested_spec g, unlocked_spec g, unlocked_spec g]
  have h1 := released_mono (i := i) (ps := a.vesting) (start := a.start) h
  have h2 := released_mono (i := i) (ps := a.lockup) (start := a.start) h
  constructor
  · split
    · rw [if_pos (by omega)]; exact h1
    · exact Nat.zero_le _
  · split
    · rw [if_pos (by omega)]; exact h2
    · exact Nat.zero_le _

/-- At the end everything is vested and unlocked. -/
theorem all_vested_at_end {a : Account n} {t : Int} (h1 : a.start < t) (h2 : a.stop ≤ t) :
    a.vested t = a.original ∧ a.unlocked t = a.original := by
  unfold Account.vested Account.unlocked readSchedule
  rw [if_neg (by omega), if_pos h2, if_neg (by omega), if_pos h2]
  exact ⟨rfl, rfl⟩

/-- The locked coins: the original coins split into the locked ones, the vested and unlocked ones, and the locked vested
coins that are delegated.  The difference is never negative, unvested coins are always locked, and without delegations
exactly the coins that are not both vested and unlocked are locked. -/
theorem locked_spec {a : Account n} (g : Good a) (t : Int) (i : Fin n) :
    a.locked t i + min (a.unlocked t i) (a.vested t i) +
        min (a.delegatedFree i) (a.vested t i - min (a.unlocked t i) (a.vested t i)) = a.original i ∧
      a.original i - a.vested t i ≤ a.locked t i ∧
      (a.delegatedFree i = 0 → a.locked t i = a.original i - min (a.unlocked t i) (a.vested t i)) := by
  have hv := vested_le g t
  have hle : ((a.unlockedVested t).add (a.delegatedFree.min (a.lockedVested t))).le a.original = true := by
    unfold Coins.le
    refine decide_eq_true (fun j => ?_)
    have := hv j
    show min (a.unlocked t j) (a.vested t j) + min (a.delegatedFree j) (a.vested t j - min (a.unlocked t j) (a.vested t j)) ≤ _
    omega
  have he : a.locked t i = a.original i - (min (a.unlocked t i) (a.vested t i) +
      min (a.delegatedFree i) (a.vested t i - min (a.unlocked t i) (a.vested t i))) := by
    unfold Account.locked
    exact congrFun (if_pos hle) i
  have := hv i
  rw [he]
  omega

/-! ## Clawback -/

theorem conjunctEmit_times {last time : Int} {res A B : Coins n} (h : last ≤ time) :
    last ≤ (conjunctEmit last time res A B).1 ∧ (conjunctEmit last time res A B).1 ≤ time ∧
      Forward (conjunctEmit last time res A B).2.2 ∧
      last + totalLength (conjunctEmit last time res A B).2.2 = (conjunctEmit last time res A B).1 := by
  unfold conjunctEmit
  split
  · split
    · exact ⟨Int.le_refl _, h, forward_nil, Int.add_zero _⟩
    · refine ⟨h, Int.le_refl _, Forward.cons (by show 0 ≤ time - last; omega) forward_nil, ?_⟩
      show last + (time - last + 0) = time
      omega
  · exact ⟨Int.le_refl _, h, forward_nil, Int.add_zero _⟩

theorem totalLength_append (as bs : List (Period n)) : totalLength (as ++ bs) = totalLength as + totalLength bs := by
  induction as with
  | nil => exact (Int.zero_add _).symm
  | cons a as ih =>
    show a.len + totalLength (as ++ bs) = a.len + totalLength as + totalLength bs
    rw [ih]
    omega

theorem Forward.append {as bs : List (Period n)} (ha : Forward as) (hb : Forward bs) : Forward (as ++ bs) := by
  intro p hp
  rcases List.mem_append.1 hp with hp | hp
  · exact ha p hp
  · exact hb p hp

theorem conjunctLoop_times {f : Nat} {ta tb last : Int} {res A B : Coins n} {as bs : List (Period n)}
    (hl : as.length + bs.length ≤ f) (ha : Forward as) (hb : Forward bs)
    (h1 : ∀ a as', as = a :: as' → last ≤ ta + a.len) (h2 : ∀ b bs', bs = b :: bs' → last ≤ tb + b.len) :
    Forward (conjunctLoop f ta tb last res A B as bs).2 ∧
      last + totalLength (conjunctLoop f ta tb last res A B as bs).2 = (conjunctLoop f ta tb last res A B as bs).1 := by
  induction f generalizing ta tb last res A B as bs with
  | zero => exact ⟨forward_nil, Int.add_zero _⟩
  | succ f ih =>
    have fin : ∀ (e : Int × Coins n × List (Period n)) (r : Int × List (Period n)), Forward e.2.2 →
        last + totalLength e.2.2 = e.1 → (Forward r.2 ∧ e.1 + totalLength r.2 = r.1) →
        Forward (e.2.2 ++ r.2) ∧ last + totalLength (e.2.2 ++ r.2) = r.1 := by
      intro e r g1 g2 ⟨g3, g4⟩
      refine ⟨g1.append g3, ?_⟩
      rw [totalLength_append]
      omega
    have next : ∀ {ps : List (Period n)} {x e : Int}, Forward ps → e ≤ x → ∀ p ps', ps = p :: ps' → e ≤ x + p.len := by
      intro ps x e hf hx p ps' he
      have := hf p (by rw [he]; exact List.mem_cons_self)
      omega
    cases as with
    | nil =>
      cases bs with
      | nil => exact ⟨forward_nil, Int.add_zero _⟩
      | cons b bs =>
        simp only [List.length_cons] at hl
        unfold conjunctLoop
        obtain ⟨_, e2, e3, e4⟩ := conjunctEmit_times (res := res) (A := A) (B := B.add b.amount) (h2 b bs rfl)
        exact fin _ _ e3 e4 (ih (by simp only [List.length_nil] at *; omega) ha hb.tail (fun _ _ e => by cases e)
          (next hb.tail e2))
    | cons a as =>
      have a1 := h1 a as rfl
      cases bs with
      | nil =>
        simp only [List.length_cons] at hl
        unfold conjunctLoop
        obtain ⟨_, e2, e3, e4⟩ := conjunctEmit_times (res := res) (A := A.add a.amount) (B := B) a1
        exact fin _ _ e3 e4 (ih (by simp only [List.length_nil] at *; omega) ha.tail hb (next ha.tail e2)
          (fun _ _ e => by cases e))
      | cons b bs =>
        have b1 := h2 b bs rfl
        simp only [List.length_cons] at hl
        unfold conjunctLoop
        split
        · obtain ⟨_, e2, e3, e4⟩ := conjunctEmit_times (res := res) (A := A.add a.amount) (B := B) a1
          exact fin _ _ e3 e4 (ih (by simp only [List.length_cons]; omega) ha.tail hb (next ha.tail e2)
            (fun _ _ e => by cases e; omega))
        · split
          · obtain ⟨_, e2, e3, e4⟩ := conjunctEmit_times (res := res) (A := A) (B := B.add b.amount) b1
            exact fin _ _ e3 e4 (ih (by simp only [List.length_cons]; omega) ha hb.tail (fun _ _ e => by cases e; omega)
              (next hb.tail e2))
          · obtain ⟨_, e2, e3, e4⟩ := conjunctEmit_times (res := res) (A := A.add a.amount) (B := B.add b.amount) a1
            exact fin _ _ e3 e4 (ih (by omega) ha.tail hb.tail (next ha.tail e2) (next hb.tail e2))

theorem conjunct_times {sa sb : Int} {as bs : List (Period n)} (ha : Forward as) (hb : Forward bs) :
    Forward (conjunct sa sb as bs).periods ∧
      (conjunct sa sb as bs).start + totalLength (conjunct sa sb as bs).periods = (conjunct sa sb as bs).stop := by
  refine conjunctLoop_times (Nat.le_refl _) ha hb ?_ ?_
  · intro a as' e
    have := ha a (by rw [e]; exact List.mem_cons_self)
    have := (min64_spec sa sb).1
    omega
  · intro b bs' e
    have := hb b (by rw [e]; exact List.mem_cons_self)
    have := (min64_spec sa sb).2.1
    omega

theorem take_forward {ps : List (Period n)} (h : Forward ps) (k : Nat) : Forward (ps.take k) :=
  fun p hp => h p (List.mem_of_mem_take hp)

theorem take_length_le {ps : List (Period n)} (h : Forward ps) (k : Nat) : totalLength (ps.take k) ≤ totalLength ps := by
  induction ps generalizing k with
  | nil => simp only [List.take_nil]; exact Int.le_refl _
  | cons p ps ih =>
    cases k with
    | zero => exact totalLength_nonneg h
    | succ k =>
      have := ih h.tail k
      show p.len + totalLength (ps.take k) ≤ p.len + totalLength ps
      omega

/-- The periods that have passed are exactly those that have been released. -/
theorem take_count {t : Int} {ps : List (Period n)} {start : Int} (hf : Forward ps) (hs : start ≤ t) :
    (∀ t' i, released t' i start (ps.take (countLoop t start ps)) = released (min t' t) i start ps) ∧
      start + totalLength (ps.take (countLoop t start ps)) ≤ t := by
  induction ps generalizing start with
  | nil => exact ⟨fun _ _ => rfl, by show start + 0 ≤ t; omega⟩
  | cons p ps ih =>
    unfold countLoop
    split
    · rename_i h
      refine ⟨fun t' i => ?_, by show start + 0 ≤ t; omega⟩
      show 0 = (if start + p.len ≤ min t' t then p.amount i else 0) + _
      rw [if_neg (by omega), released_early hf.tail (by omega)]
    · rename_i h
      obtain ⟨h1, h2⟩ := ih hf.tail (start := start + p.len) (by omega)
      constructor
      · intro t' i
        show (if start + p.len ≤ t' then p.amount i else 0) + released t' i _ (ps.take _) = (if _ then _ else _) + _
        rw [h1]
        by_cases hx : start + p.len ≤ t'
        · rw [if_pos hx, if_pos (by omega)]
        · rw [if_neg hx, if_neg (by omega)]
      · show start + (p.len + totalLength (ps.take _)) ≤ t
        omega

theorem pastCount_spec {a : Account n} (g : Good a) (t : Int) :
    ∀ t' i, a.start < t' →
      released t' i a.start (a.vesting.take (pastCount a.start a.stop a.vesting t)) = a.vested (min t' t) i := by
  intro t' i ht'
  unfold pastCount
  split
  · rename_i h
    rw [vested_spec g, if_neg (by omega)]
    rfl
  · split
    · rename_i h1 h2
      rw [List.take_length, vested_spec g, if_pos (by omega)]
      by_cases hx : t' ≤ t
      · rw [show min t' t = t' by omega]
      · have hv := g.vestEnd
        rw [released_late g.vestF (by omega), released_late g.vestF (by omega)]
    · rename_i h1 h2
      rw [(take_count g.vestF (by omega)).1, vested_spec g, if_pos (by omega)]

/-- A clawback at time `t` returns exactly the coins that are not vested at `t`; what the account keeps is what was vested. -/
theorem clawback_takes_unvested {a : Account n} (g : Good a) (t : Int) (i : Fin n) :
    (a.computeClawback t).1.original i = a.vested t i ∧
      (a.computeClawback t).1.original i + (a.computeClawback t).2 i = a.original i := by
  have := vested_le g t i
  refine ⟨rfl, ?_⟩
  show a.vested t i + (a.original i - a.vested t i) = a.original i
  omega

/-- The new account is well-formed. -/
theorem clawback_good {a : Account n} (g : Good a) (t : Int) : Good (a.computeClawback t).1 := by
  have hcap : Forward [(⟨0, a.vested t⟩ : Period n)] := Forward.cons (Int.le_refl _) forward_nil
  obtain ⟨c1, c2⟩ := conjunct_times (sa := a.start) (sb := a.start) g.lockF hcap
  have hstart : (conjunct a.start a.start a.lockup [(⟨0, a.vested t⟩ : Period n)]).start = a.start := by
    show min64 a.start a.start = _
    unfold min64; split <;> rfl
  have hm := max64_spec (a.start + totalLength (a.vesting.take (pastCount a.start a.stop a.vesting t)))
    (conjunct a.start a.start a.lockup [(⟨0, a.vested t⟩ : Period n)]).stop
  refine ⟨c1, take_forward g.vestF _, ?_, hm.1, ?_, ?_⟩
  · show a.start + totalLength (conjunct a.start a.start a.lockup [(⟨0, a.vested t⟩ : Period n)]).periods ≤ _
    rw [hstart] at c2
    rw [c2]
    exact hm.2.1
  · intro i
    show totalAmount (conjunct a.start a.start a.lockup [(⟨0, a.vested t⟩ : Period n)]).periods i = a.vested t i
    obtain ⟨T, hT⟩ := exists_late a.start a.lockup g.lockF a.start _ hcap a.start _ c1
    obtain ⟨h1, h2, h3⟩ := hT i
    have := intersection_releases_min (sa := a.start) (sb := a.start) g.lockF hcap T i
    rw [hstart, h3, h1, h2] at this
    rw [this, g.lockSum]
    show min _ (a.vested t i + 0) = _
    have := vested_le g t i
    omega
  · intro i
    show totalAmount (a.vesting.take _) i = a.vested t i
    have hv := g.vestEnd
    have hn := totalLength_nonneg g.vestF
    have hle := take_length_le g.vestF (pastCount a.start a.stop a.vesting t)
    have hlate := released_late (t := max t (a.stop + 1)) (i := i) (start := a.start)
      (take_forward g.vestF (pastCount a.start a.stop a.vesting t)) (by omega)
    rw [← hlate, pastCount_spec g t _ i (by omega), show min (max t (a.stop + 1)) t = t by omega]

/-- After a clawback at `t` no further coins vest: vested coins are those of the old account at `t` or before, and the coins
unlocked at any time are the smaller of the old unlocked coins and the coins vested at `t`; so nothing unlocks earlier than
before. -/
theorem clawback_schedules {a : Account n} (g : Good a) (t t' : Int) (i : Fin n) :
    (a.computeClawback t).1.vested t' i = a.vested (min t' t) i ∧
      (a.computeClawback t).1.unlocked t' i = min (a.unlocked t' i) (a.vested t i) ∧
      min ((a.computeClawback t).1.unlocked t' i) ((a.computeClawback t).1.vested t' i) =
        min (a.unlocked t' i) (a.vested (min t' t) i) := by
  have g' := clawback_good g t
  have hcap : Forward [(⟨0, a.vested t⟩ : Period n)] := Forward.cons (Int.le_refl _) forward_nil
  have hstart : (conjunct a.start a.start a.lockup [(⟨0, a.vested t⟩ : Period n)]).start = a.start := by
    show min64 a.start a.start = _
    unfold min64; split <;> rfl
  have h1 : (a.computeClawback t).1.vested t' i = a.vested (min t' t) i := by
    rw [vested_spec g']
    show (if a.start < t' then released t' i a.start (a.vesting.take _) else 0) = _
    split
    · exact pastCount_spec g t t' i (by assumption)
    · rw [vested_spec g, if_neg (by omega)]
  have h2 : (a.computeClawback t).1.unlocked t' i = min (a.unlocked t' i) (a.vested t i) := by
    rw [unlocked_spec g', unlocked_spec g]
    show (if a.start < t' then
      released t' i a.start (conjunct a.start a.start a.lockup [(⟨0, a.vested t⟩ : Period n)]).periods else 0) = _
    split
    · have := intersection_releases_min (sa := a.start) (sb := a.start) g.lockF hcap t' i
      rw [hstart] at this
      rw [this]
      show min _ ((if a.start + 0 ≤ t' then a.vested t i else 0) + 0) = _
      rw [if_pos (by omega), Nat.add_zero]
    · omega
  refine ⟨h1, h2, ?_⟩
  rw [h1, h2]
  by_cases hx : t' ≤ t
  · rw [show min t' t = t' by omega]
    have := (vested_mono g hx i).1
    omega
  · rw [show min t' t = t by omega]
    omega

/-- 100 coins vest at times 10, 20, 30, 40 and unlock at 35. -/
def account100 : Account 1 :=
  ⟨0, 40, fun _ => 100, one1 [(35, 100)], one1 [(10, 25), (10, 25), (10, 25), (10, 25)], fun _ => 0⟩

theorem account100_good : Good account100 :=
  ⟨forward_one1 (by decide), forward_one1 (by decide), by decide +kernel, by decide +kernel, by decide +kernel,
    by decide +kernel⟩

example : account100.validate = true ∧ account100.vested 25 0 = 50 ∧ account100.unlocked 25 0 = 0 ∧
    (account100.computeClawback 25).2 0 = 50 ∧ (account100.computeClawback 25).1.locked 30 0 = 50 ∧
    (account100.computeClawback 25).1.locked 35 0 = 0 := by decide +kernel

/-- The full statement about the message: a clawback does not unlock coins that were locked. -/
def ClawbackKeepsLocked (n : Nat) : Prop :=
  ∀ (a : Account n) (balance left : Coins n) (acc : Acc n) (t t' : Int), Good a →
    transferClawback a balance t = some (acc, left) → t ≤ t' → ∀ i, (a.computeClawback t).1.locked t' i ≤ acc.locked t' i

/-- The message does not keep the account that `ComputeClawback` returns: it stores a plain account, and coins that are vested
but still locked up become free at once. -/
theorem clawback_frees_locked : ¬ ClawbackKeepsLocked 1 := by
  intro h
  have := h account100 (fun _ => 100) _ _ 25 25 account100_good rfl (Int.le_refl _) 0
  revert this
  decide +kernel

/-- A clawback before anything has vested leaves an account that does not pass `Validate`. -/
theorem clawback_may_be_invalid : account100.validate = true ∧ (account100.computeClawback 5).1.validate = false := by
  decide +kernel

/-- The message moves exactly the unvested coins, and it succeeds whenever the balance covers the locked coins. -/
theorem clawback_message {a : Account n} (g : Good a) {balance : Coins n} {t : Int} (hb : ∀ i, a.locked t i ≤ balance i) :
    ∃ left, transferClawback a balance t = some (.base, left) ∧
      ∀ i, left i + (a.original i - a.vested t i) = balance i := by
  have hl : (a.computeClawback t).2.le balance = true := by
    unfold Coins.le
    refine decide_eq_true (fun i => ?_)
    have := (locked_spec g t i).2.1
    have := hb i
    show a.original i - a.vested t i ≤ balance i
    omega
  have hl' : ∀ i, a.original i - a.vested t i ≤ balance i := of_decide_eq_true hl
  refine ⟨balance.sub (a.computeClawback t).2, ?_, fun i => ?_⟩
  · unfold transferClawback
    rw [if_pos hl]
  · have := hl' i
    show balance i - (a.original i - a.vested t i) + _ = _
    omega

/-! ## Adding a grant -/

/-- The start of the account's schedules when a grant is added. -/
def Account.base (a : Account n) (grantStart : Int) : Int :=
  if a.lockup.isEmpty && a.vesting.isEmpty then grantStart else a.start

/-- A grant can always be added.  The new account is well-formed and has the coins of both.  At every time it has vested (and
unlocked) what the old schedule and the grant have released. -/
theorem grant_adds {a : Account n} (g : Good a) {gs : Int} {lockup vesting : List (Period n)} {coins : Coins n}
    (h1 : Forward lockup) (h2 : Forward vesting) (h3 : ∀ i, totalAmount lockup i = coins i)
    (h4 : ∀ i, totalAmount vesting i = coins i) :
    ∃ a', a.addGrant gs lockup vesting coins = some a' ∧ Good a' ∧ (∀ i, a'.original i = a.original i + coins i) ∧
      ∀ t i, min (a.base gs) gs < t →
        a'.vested t i = released t i (a.base gs) a.vesting + released t i gs vesting ∧
        a'.unlocked t i = released t i (a.base gs) a.lockup + released t i gs lockup := by
  obtain ⟨l1, l2⟩ := disjunct_times (sa := a.base gs) (sb := gs) g.lockF h1
  obtain ⟨v1, v2⟩ := disjunct_times (sa := a.base gs) (sb := gs) g.vestF h2
  have hm := max64_spec (disjunct (a.base gs) gs a.lockup lockup).stop (disjunct (a.base gs) gs a.vesting vesting).stop
  have hs : (disjunct (a.base gs) gs a.lockup lockup).start = (disjunct (a.base gs) gs a.vesting vesting).start := rfl
  have good : Good { a with
      start := (disjunct (a.base gs) gs a.lockup lockup).start
      stop := max64 (disjunct (a.base gs) gs a.lockup lockup).stop (disjunct (a.base gs) gs a.vesting vesting).stop
      lockup := (disjunct (a.base gs) gs a.lockup lockup).periods
      vesting := (disjunct (a.base gs) gs a.vesting vesting).periods
      original := a.original.add coins } := by
    refine ⟨l1, v1, ?_, ?_, ?_, ?_⟩
    · show _ + _ ≤ _
      rw [l2]; exact hm.1
    · show (disjunct (a.base gs) gs a.lockup lockup).start + _ ≤ _
      rw [hs, v2]; exact hm.2.1
    · intro i
      show totalAmount _ i = a.original i + coins i
      rw [union_total g.lockF h1, g.lockSum, h3]
    · intro i
      show totalAmount _ i = a.original i + coins i
      rw [union_total g.vestF h2, g.vestSum, h4]
  refine ⟨_, ?_, good, fun _ => rfl, ?_⟩
  · unfold Account.addGrant
    exact if_neg (fun h => h hs)
  · intro t i ht
    have hmin := (min64_spec (a.base gs) gs).2.2
    have hlt : (disjunct (a.base gs) gs a.lockup lockup).start < t := by
      show min64 (a.base gs) gs < t
      have := min64_spec (a.base gs) gs
      omega
    rw [vested_spec good, unlocked_spec good]
    constructor
    · show (if (disjunct (a.base gs) gs a.lockup lockup).start < t then _ else 0) = _
      rw [if_pos hlt]
      exact union_releases_sum _ _ t _ _ i
    · show (if (disjunct (a.base gs) gs a.lockup lockup).start < t then _ else 0) = _
      rw [if_pos hlt]
      exact union_releases_sum _ _ t _ _ i

example : ∃ a', account100.addGrant 20 (one1 [(0, 60)]) (one1 [(10, 30), (30, 30)]) (fun _ => 60) = some a' ∧
    a'.vested 30 0 = 75 + 30 ∧ a'.unlocked 30 0 = 60 ∧ a'.stop = 60 := ⟨_, rfl, by decide +kernel⟩

/-- Aligning two schedules to one start does not change what they release. -/
theorem align_keeps {sa sb : Int} {as bs : List (Period n)} (t : Int) (i : Fin n) :
    released t i (align sa sb as bs).1 (align sa sb as bs).2.2.1 = released t i sa as ∧
      released t i (align sa sb as bs).1 (align sa sb as bs).2.2.2 = released t i sb bs := by
  have key : ∀ (s s' : Int) (ps : List (Period n)), released t i s' (extend (s - s') ps) = released t i s ps := by
    intro s s' ps
    cases ps with
    | nil => rfl
    | cons p ps =>
      show (if s' + (p.len + (s - s')) ≤ t then _ else 0) + released t i (s' + (p.len + (s - s'))) ps = _
      rw [show s' + (p.len + (s - s')) = s + p.len by omega]
      rfl
  exact ⟨key _ _ _, key _ _ _⟩

end Vesting
