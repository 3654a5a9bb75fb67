import Verif.Vesting.Schedule
/-!
# Properties of vesting schedules (C33, C34, C35)
-/
namespace Vesting

variable {n : Nat}

/-! ## Specification -/

/-- What a schedule has released at time `t`: the amounts of all its events at or before `t`.  The events are at the ends of
the periods. -/
def released (t : Int) (i : Fin n) : Int → List (Period n) → Nat
  | _, [] => 0
  | start, p :: ps => (if start + p.len ≤ t then p.amount i else 0) + released t i (start + p.len) ps

/-- All lengths are non-negative. -/
def Forward (ps : List (Period n)) : Prop := ∀ p ∈ ps, 0 ≤ p.len

/-! ## Reading a schedule -/

theorem released_early {t : Int} {i : Fin n} {ps : List (Period n)} {start : Int} (hf : Forward ps) (h : t < start) :
    released t i start ps = 0 := by
  induction ps generalizing start with
  | nil => rfl
  | cons p ps ih =>
    have h0 := hf p List.mem_cons_self
    show (if start + p.len ≤ t then p.amount i else 0) + _ = 0
    rw [if_neg (by omega), ih (fun q hq => hf q (List.mem_cons_of_mem _ hq)) (by omega)]

theorem totalLength_nonneg {ps : List (Period n)} (hf : Forward ps) : 0 ≤ totalLength ps := by
  induction ps with
  | nil => exact Int.le_refl _
  | cons p ps ih =>
    have := hf p List.mem_cons_self
    have := ih (fun q hq => hf q (List.mem_cons_of_mem _ hq))
    show 0 ≤ p.len + totalLength ps
    omega

theorem released_late {t : Int} {i : Fin n} {ps : List (Period n)} {start : Int} (hf : Forward ps)
    (h : start + totalLength ps ≤ t) : released t i start ps = totalAmount ps i := by
  induction ps generalizing start with
  | nil => rfl
  | cons p ps ih =>
    have hf' : Forward ps := fun q hq => hf q (List.mem_cons_of_mem _ hq)
    have := totalLength_nonneg hf'
    have h : start + (p.len + totalLength ps) ≤ t := h
    show (if start + p.len ≤ t then p.amount i else 0) + _ = p.amount i + totalAmount ps i
    rw [if_pos (by omega), ih hf' (by omega)]

theorem released_le {t : Int} {i : Fin n} {ps : List (Period n)} {start : Int} :
    released t i start ps ≤ totalAmount ps i := by
  induction ps generalizing start with
  | nil => exact Nat.le_refl _
  | cons p ps ih =>
    have := @ih (start + p.len)
    show (if start + p.len ≤ t then p.amount i else 0) + _ ≤ p.amount i + totalAmount ps i
    split <;> omega

theorem released_mono {t t' : Int} {i : Fin n} {ps : List (Period n)} {start : Int} (h : t ≤ t') :
    released t i start ps ≤ released t' i start ps := by
  induction ps generalizing start with
  | nil => exact Nat.le_refl _
  | cons p ps ih =>
    have := @ih (start + p.len)
    show (if start + p.len ≤ t then p.amount i else 0) + _ ≤ (if start + p.len ≤ t' then p.amount i else 0) + _
    split <;> split <;> omega

theorem readLoop_eq {t : Int} {ps : List (Period n)} {start : Int} {acc : Coins n} (hf : Forward ps) (i : Fin n) :
    readLoop t start acc ps i = acc i + released t i start ps := by
  induction ps generalizing start acc with
  | nil => rfl
  | cons p ps ih =>
    have hf' : Forward ps := fun q hq => hf q (List.mem_cons_of_mem _ hq)
    unfold readLoop released
    split
    · rename_i h
      rw [if_neg (by omega), released_early hf' (by omega)]
      rfl
    · rw [if_pos (by omega), ih hf']
      show acc i + p.amount i + _ = _
      omega

/-- Reading a schedule returns what it has released, from the first moment after its start. -/
theorem read_is_released {start stop t : Int} {ps : List (Period n)} {total : Coins n} (hf : Forward ps)
    (hs : start + totalLength ps ≤ stop) (ht : ∀ i, total i = totalAmount ps i) (h : start < t) (i : Fin n) :
    readSchedule start stop ps total t i = released t i start ps := by
  unfold readSchedule
  rw [if_neg (by omega)]
  split
  · rw [ht, released_late hf (by omega)]
  · rw [readLoop_eq hf]
    show 0 + _ = _
    omega

theorem read_early {start stop t : Int} {ps : List (Period n)} {total : Coins n} (h : t ≤ start) (i : Fin n) :
    readSchedule start stop ps total t i = 0 := by
  unfold readSchedule
  rw [if_pos h]
  rfl

/-! ## C33: the union of two schedules -/

theorem disjunctLoop_released {f : Nat} {ta tb last t : Int} {as bs : List (Period n)} (i : Fin n)
    (hl : as.length + bs.length ≤ f) :
    released t i last (disjunctLoop f ta tb last as bs).2 = released t i ta as + released t i tb bs := by
  induction f generalizing ta tb last as bs with
  | zero =>
    have h1 : as = [] := List.length_eq_zero_iff.1 (by omega)
    have h2 : bs = [] := List.length_eq_zero_iff.1 (by omega)
    subst h1 h2
    rfl
  | succ f ih =>
    cases as with
    | nil =>
      cases bs with
      | nil => rfl
      | cons b bs =>
        simp only [List.length_cons] at hl
        unfold disjunctLoop emit released
        dsimp only
        rw [show last + (tb + b.len - last) = tb + b.len by omega, ih (by simp only [List.length_nil] at *; omega)]
        show _ + (0 + _) = 0 + _
        omega
    | cons a as =>
      cases bs with
      | nil =>
        simp only [List.length_cons] at hl
        unfold disjunctLoop emit
        show (if last + (ta + a.len - last) ≤ t then a.amount i else 0) +
          released t i (last + (ta + a.len - last)) (disjunctLoop f (ta + a.len) tb (ta + a.len) as []).2 = 
          (if ta + a.len ≤ t then a.amount i else 0) + released t i (ta + a.len) as + 0
        rw [show last + (ta + a.len - last) = ta + a.len by omega, ih (by simp only [List.length_nil] at *; omega)]
        show _ + (_ + 0) = _
        omega
      | cons b bs =>
        simp only [List.length_cons] at hl
        unfold disjunctLoop
        split
        · show (if last + (ta + a.len - last) ≤ t then a.amount i else 0) +
            released t i (last + (ta + a.len - last)) (disjunctLoop f (ta + a.len) tb (ta + a.len) as (b :: bs)).2 = 
            (if ta + a.len ≤ t then a.amount i else 0) + released t i (ta + a.len) as + released t i tb (b :: bs)
          rw [show last + (ta + a.len - last) = ta + a.len by omega, ih (by simp only [List.length_cons]; omega)]
          omega
        · split
          · show (if last + (tb + b.len - last) ≤ t then b.amount i else 0) +
              released t i (last + (tb + b.len - last)) (disjunctLoop f ta (tb + b.len) (tb + b.len) (a :: as) bs).2 = 
              released t i ta (a :: as) + ((if tb + b.len ≤ t then b.amount i else 0) + released t i (tb + b.len) bs)
            rw [show last + (tb + b.len - last) = tb + b.len by omega, ih (by simp only [List.length_cons]; omega)]
            omega
          · have he : tb + b.len = ta + a.len := by omega
            show (if last + (ta + a.len - last) ≤ t then a.amount i + b.amount i else 0) +
              released t i (last + (ta + a.len - last)) (disjunctLoop f (ta + a.len) (ta + a.len) (ta + a.len) as bs).2 = 
              (if ta + a.len ≤ t then a.amount i else 0) + released t i (ta + a.len) as +
                ((if tb + b.len ≤ t then b.amount i else 0) + released t i (tb + b.len) bs)
            rw [show last + (ta + a.len - last) = ta + a.len by omega, ih (by omega), he]
            split <;> omega

theorem Forward.tail {p : Period n} {ps : List (Period n)} (h : Forward (p :: ps)) : Forward ps :=
  fun q hq => h q (List.mem_cons_of_mem _ hq)

theorem Forward.cons {p : Period n} {ps : List (Period n)} (h0 : 0 ≤ p.len) (h : Forward ps) : Forward (p :: ps) := by
  intro q hq
  rcases List.mem_cons.1 hq with rfl | hq
  · exact h0
  · exact h q hq

theorem forward_nil : Forward ([] : List (Period n)) := fun _ h => by cases h

/-- The times: the periods go forward, and the end is the end of the last period. -/
theorem disjunctLoop_times {f : Nat} {ta tb last : Int} {as bs : List (Period n)} (hl : as.length + bs.length ≤ f)
    (ha : Forward as) (hb : Forward bs) (h1 : last ≤ ta ∨ ∀ a as', as = a :: as' → last ≤ ta + a.len)
    (h2 : last ≤ tb ∨ ∀ b bs', bs = b :: bs' → last ≤ tb + b.len) :
    Forward (disjunctLoop f ta tb last as bs).2 ∧
      last + totalLength (disjunctLoop f ta tb last as bs).2 = (disjunctLoop f ta tb last as bs).1 := by
  induction f generalizing ta tb last as bs with
  | zero => exact ⟨forward_nil, Int.add_zero _⟩
  | succ f ih =>
    have stepA : ∀ a as', as = a :: as' → last ≤ ta + a.len := by
      intro a as' e
      rcases h1 with h1 | h1
      · have := ha a (by rw [e]; exact List.mem_cons_self)
        omega
      · exact h1 a as' e
    have stepB : ∀ b bs', bs = b :: bs' → last ≤ tb + b.len := by
      intro b bs' e
      rcases h2 with h2 | h2
      · have := hb b (by rw [e]; exact List.mem_cons_self)
        omega
      · exact h2 b bs' e
    have fin : ∀ (time : Int) (amt : Coins n) (r : Int × List (Period n)), last ≤ time →
        (Forward r.2 ∧ time + totalLength r.2 = r.1) →
        Forward (emit last time amt r).2 ∧ last + totalLength (emit last time amt r).2 = (emit last time amt r).1 := by
      intro time amt r h ⟨g1, g2⟩
      refine ⟨Forward.cons (by show 0 ≤ time - last; omega) g1, ?_⟩
      show last + (time - last + totalLength r.2) = r.1
      omega
    cases as with
    | nil =>
      cases bs with
      | nil => exact ⟨forward_nil, Int.add_zero _⟩
      | cons b bs =>
        simp only [List.length_cons] at hl
        unfold disjunctLoop
        exact fin _ _ _ (stepB b bs rfl) (ih (by simp only [List.length_nil] at *; omega) ha hb.tail
          (.inr (fun _ _ e => by cases e)) (.inl (Int.le_refl _)))
    | cons a as =>
      have a1 := stepA a as rfl
      cases bs with
      | nil =>
        simp only [List.length_cons] at hl
        unfold disjunctLoop
        exact fin _ _ _ a1 (ih (by simp only [List.length_nil] at *; omega) ha.tail hb
          (.inl (Int.le_refl _)) (.inr (fun _ _ e => by cases e)))
      | cons b bs =>
        have b1 := stepB b bs rfl
        simp only [List.length_cons] at hl
        unfold disjunctLoop
        split
        · exact fin _ _ _ a1 (ih (by simp only [List.length_cons]; omega) ha.tail hb (.inl (Int.le_refl _))
            (.inr (fun b' _ e => by cases e; omega)))
        · split
          · exact fin _ _ _ b1 (ih (by simp only [List.length_cons]; omega) ha hb.tail
              (.inr (fun b' _ e => by cases e; omega)) (.inl (Int.le_refl _)))
          · exact fin _ _ _ a1 (ih (by omega) ha.tail hb.tail (.inl (Int.le_refl _)) (.inl (Int.le_refl _)))

/-- The union of two schedules releases at every time the sum of what they release. -/
theorem union_releases_sum (sa sb t : Int) (as bs : List (Period n)) (i : Fin n) :
    released t i (disjunct sa sb as bs).start (disjunct sa sb as bs).periods = released t i sa as + released t i sb bs :=
  disjunctLoop_released i (Nat.le_refl _)

theorem min64_spec (a b : Int) : min64 a b ≤ a ∧ min64 a b ≤ b ∧ (min64 a b = a ∨ min64 a b = b) := by
  unfold min64; split <;> omega

theorem max64_spec (a b : Int) : a ≤ max64 a b ∧ b ≤ max64 a b ∧ (max64 a b = a ∨ max64 a b = b) := by
  unfold max64; split <;> omega

theorem disjunct_times {sa sb : Int} {as bs : List (Period n)} (ha : Forward as) (hb : Forward bs) :
    Forward (disjunct sa sb as bs).periods ∧
      (disjunct sa sb as bs).start + totalLength (disjunct sa sb as bs).periods = (disjunct sa sb as bs).stop :=
  disjunctLoop_times (Nat.le_refl _) ha hb (.inl (min64_spec sa sb).1) (.inl (min64_spec sa sb).2.1)

/-- The total of a schedule is what it has released in the end. -/
theorem exists_late (s : Int) (ps : List (Period n)) (hf : Forward ps) (s' : Int) (ps' : List (Period n)) (hf' : Forward ps')
    (s2 : Int) (ps2 : List (Period n)) (hf2 : Forward ps2) :
    ∃ t, ∀ i, released t i s ps = totalAmount ps i ∧ released t i s' ps' = totalAmount ps' i ∧
      released t i s2 ps2 = totalAmount ps2 i := by
  refine ⟨max (max (s + totalLength ps) (s' + totalLength ps')) (s2 + totalLength ps2), fun i => ⟨?_, ?_, ?_⟩⟩
  · exact released_late hf (by omega)
  · exact released_late hf' (by omega)
  · exact released_late hf2 (by omega)

theorem union_total {sa sb : Int} {as bs : List (Period n)} (ha : Forward as) (hb : Forward bs) (i : Fin n) :
    totalAmount (disjunct sa sb as bs).periods i = totalAmount as i + totalAmount bs i := by
  obtain ⟨t, ht⟩ := exists_late sa as ha sb bs hb _ _ (disjunct_times (sa := sa) (sb := sb) ha hb).1
  obtain ⟨h1, h2, h3⟩ := ht i
  rw [← h3, union_releases_sum, h1, h2]

/-- A schedule as the code reads it: with its own end and total. -/
def reading (start : Int) (ps : List (Period n)) (t : Int) (i : Fin n) : Nat :=
  readSchedule start (start + totalLength ps) ps (totalAmount ps) t i

/-- The full statement of C33: reading the union gives the sum of the readings. -/
def UnionReadsSum (n : Nat) : Prop :=
  ∀ (sa sb t : Int) (as bs : List (Period n)), Forward as → Forward bs → ∀ i,
    readSchedule (disjunct sa sb as bs).start (disjunct sa sb as bs).stop (disjunct sa sb as bs).periods
      ((totalAmount as).add (totalAmount bs)) t i = reading sa as t i + reading sb bs t i

theorem released_at_start {s t : Int} {i : Fin n} {ps : List (Period n)} (hf : Forward ps)
    (h0 : ∀ p ps', ps = p :: ps' → 0 < p.len) (h : t ≤ s) : released t i s ps = 0 := by
  cases ps with
  | nil => rfl
  | cons p ps =>
    have := h0 p ps rfl
    show (if s + p.len ≤ t then p.amount i else 0) + _ = 0
    rw [if_neg (by omega), released_early hf.tail (by omega)]

/-- It holds at every time other than exactly the later of the two start times, and also there if the later schedule has no
event at its start. -/
theorem union_reads_sum_partial {sa sb t : Int} {as bs : List (Period n)} (ha : Forward as) (hb : Forward bs)
    (hA : t ≠ sa ∨ sa ≤ sb ∨ ∀ p ps, as = p :: ps → 0 < p.len) (hB : t ≠ sb ∨ sb ≤ sa ∨ ∀ p ps, bs = p :: ps → 0 < p.len)
    (i : Fin n) :
    readSchedule (disjunct sa sb as bs).start (disjunct sa sb as bs).stop (disjunct sa sb as bs).periods
      ((totalAmount as).add (totalAmount bs)) t i = reading sa as t i + reading sb bs t i := by
  obtain ⟨d1, d2⟩ := disjunct_times (sa := sa) (sb := sb) ha hb
  obtain ⟨m1, m2, m3⟩ := min64_spec sa sb
  have hstart : (disjunct sa sb as bs).start = min64 sa sb := rfl
  unfold reading
  by_cases h : t ≤ min64 sa sb
  · rw [read_early (by rw [hstart]; exact h), read_early (by omega), read_early (by omega)]
  · rw [read_is_released (total := (totalAmount as).add (totalAmount bs)) d1 (Int.le_of_eq d2)
      (fun i => (union_total ha hb i).symm) (by rw [hstart]; omega), union_releases_sum]
    congr 1
    · by_cases hx : sa < t
      · exact (read_is_released ha (Int.le_refl _) (fun _ => rfl) hx i).symm
      · rw [read_early (by omega)]
        by_cases he : t = sa
        · rcases hA with h1 | h1 | h1
          · exact absurd he h1
          · exfalso; omega
          · exact released_at_start ha h1 (by omega)
        · exact released_early ha (by omega)
    · by_cases hx : sb < t
      · exact (read_is_released hb (Int.le_refl _) (fun _ => rfl) hx i).symm
      · rw [read_early (by omega)]
        by_cases he : t = sb
        · rcases hB with h1 | h1 | h1
          · exact absurd he h1
          · exfalso; omega
          · exact released_at_start hb h1 (by omega)
        · exact released_early hb (by omega)

/-- A schedule of one coin. -/
def one1 (l : List (Int × Nat)) : List (Period 1) := l.map (fun p => ⟨p.1, fun _ => p.2⟩)

theorem forward_one1 {l : List (Int × Nat)} (h : ∀ p ∈ l, 0 ≤ p.1) : Forward (one1 l) := by
  intro p hp
  unfold one1 at hp
  obtain ⟨q, hq, rfl⟩ := List.mem_map.1 hp
  exact h q hq

example : Forward (one1 [(10, 3), (0, 4)]) ∧ reading 0 (one1 [(10, 3), (5, 4)]) 12 0 = 3 ∧
    reading 4 (one1 [(6, 1), (3, 7)]) 12 0 = 1 ∧
    (disjunct 0 4 (one1 [(10, 3), (5, 4)]) (one1 [(6, 1), (3, 7)])).periods.map (fun p => (p.len, p.amount 0)) =
      [(10, 4), (3, 7), (2, 4)] := by
  refine ⟨forward_one1 (by decide), ?_⟩
  decide +kernel

/-- It fails at the later start time if that schedule releases something at its start, as the default schedules of a grant
do (length 0). -/
theorem union_early_at_start : ¬ UnionReadsSum 1 := by
  intro h
  have := h 0 5 5 (one1 [(10, 3)]) (one1 [(0, 7)]) (forward_one1 (by decide)) (forward_one1 (by decide)) 0
  revert this
  decide +kernel

/-! ## C34: the intersection of two schedules -/

theorem conjunctEmit_spec {last time : Int} {res A B A' B' : Coins n} (hr : res = A.min B) (h1 : ∀ i, A i ≤ A' i)
    (h2 : ∀ i, B i ≤ B' i) :
    (conjunctEmit last time res A' B').2.1 = A'.min B' ∧
      ∀ t i, ∀ ps : List (Period n), released t i last ((conjunctEmit last time res A' B').2.2 ++ ps) =
        (if time ≤ t then A'.min B' i - res i else 0) + released t i (conjunctEmit last time res A' B').1 ps := by
  have hle : res.le (A'.min B') = true := by
    unfold Coins.le
    refine decide_eq_true (fun i => ?_)
    rw [hr]
    show min (A i) (B i) ≤ min (A' i) (B' i)
    have := h1 i; have := h2 i
    omega
  have hle' : ∀ i, res i ≤ A'.min B' i := of_decide_eq_true hle
  unfold conjunctEmit
  rw [if_pos hle]
  split
  · rename_i hz
    have hz : ∀ i, A'.min B' i - res i = 0 := of_decide_eq_true hz
    constructor
    · funext i
      have := hz i; have := hle' i
      show res i = _
      omega
    · intro t i ps
      have := hz i
      show released t i last ps = _ + released t i last ps
      rw [this]
      split <;> omega
  · constructor
    · funext i
      have := hle' i
      show res i + (A'.min B' i - res i) = _
      omega
    · intro t i ps
      show (if last + (time - last) ≤ t then A'.min B' i - res i else 0) + released t i (last + (time - last)) ps = _
      rw [show last + (time - last) = time by omega]

theorem min_apply (A B : Coins n) (i : Fin n) : A.min B i = min (A i) (B i) := rfl

theorem conjunctLoop_released {f : Nat} {ta tb last : Int} {res A B : Coins n} {as bs : List (Period n)}
    (hl : as.length + bs.length ≤ f) (ha : Forward as) (hb : Forward bs) (hr : res = A.min B) (t : Int) (i : Fin n) :
    res i + released t i last (conjunctLoop f ta tb last res A B as bs).2 =
      min (A i + released t i ta as) (B i + released t i tb bs) := by
  induction f generalizing ta tb last res A B as bs with
  | zero =>
    have h1 : as = [] := List.length_eq_zero_iff.1 (by omega)
    have h2 : bs = [] := List.length_eq_zero_iff.1 (by omega)
    subst h1 h2
    rw [hr]
    rfl
  | succ f ih =>
    -- one round that consumes `x` of A and `y` of B at `time`
    have round : ∀ (time ta' tb' : Int) (x y : Nat) (A' B' : Coins n) (as' bs' : List (Period n)),
        as'.length + bs'.length ≤ f → Forward as' → Forward bs' → (∀ i, A i ≤ A' i) → (∀ i, B i ≤ B' i) →
        A' i = A i + x → B' i = B i + y →
        released t i ta as = (if time ≤ t then x else 0) + released t i ta' as' →
        released t i tb bs = (if time ≤ t then y else 0) + released t i tb' bs' →
        (t < time → released t i ta' as' = 0 ∧ released t i tb' bs' = 0) →
        res i + released t i last ((conjunctEmit last time res A' B').2.2 ++
            (conjunctLoop f ta' tb' (conjunctEmit last time res A' B').1 (conjunctEmit last time res A' B').2.1 A' B' as'
              bs').2) =
          min (A i + released t i ta as) (B i + released t i tb bs) := by
      intro time ta' tb' x y A' B' as' bs' hl' ha' hb' hA hB hx hy hra hrb hz
      obtain ⟨c1, c2⟩ := conjunctEmit_spec (last := last) (time := time) hr hA hB
      rw [c2, c1]
      have := ih (ta := ta') (tb := tb') (last := (conjunctEmit last time res A' B').1) hl' ha' hb' (rfl : A'.min B' = _)
      have hres : res i = min (A i) (B i) := by rw [hr]; rfl
      rw [min_apply] at this ⊢
      rw [hra, hrb]
      by_cases ht : time ≤ t
      · rw [if_pos ht] at *
        rw [if_pos ht, if_pos ht]
        omega
      · rw [if_neg ht, if_neg ht, if_neg ht]
        obtain ⟨z1, z2⟩ := hz (by omega)
        rw [z1, z2] at this ⊢
        omega
    cases as with
    | nil =>
      cases bs with
      | nil => rw [hr]; rfl
      | cons b bs =>
        simp only [List.length_cons] at hl
        unfold conjunctLoop
        refine round (tb + b.len) ta (tb + b.len) 0 (b.amount i) A (B.add b.amount) [] bs
          (by simp only [List.length_nil] at *; omega) ha hb.tail (fun _ => Nat.le_refl _) (fun _ => Nat.le_add_right _ _)
          rfl rfl ?_ rfl (fun h => ⟨rfl, released_early hb.tail h⟩)
        show 0 = _ + 0
        split <;> rfl
    | cons a as =>
      cases bs with
      | nil =>
        simp only [List.length_cons] at hl
        unfold conjunctLoop
        refine round (ta + a.len) (ta + a.len) tb (a.amount i) 0 (A.add a.amount) B as []
          (by simp only [List.length_nil] at *; omega) ha.tail hb (fun _ => Nat.le_add_right _ _) (fun _ => Nat.le_refl _)
          rfl rfl rfl ?_ (fun h => ⟨released_early ha.tail h, rfl⟩)
        show 0 = _ + 0
        split <;> rfl
      | cons b bs =>
        simp only [List.length_cons] at hl
        unfold conjunctLoop
        split
        · rename_i hlt
          refine round (ta + a.len) (ta + a.len) tb (a.amount i) 0 (A.add a.amount) B as (b :: bs)
            (by simp only [List.length_cons]; omega) ha.tail hb (fun _ => Nat.le_add_right _ _) (fun _ => Nat.le_refl _)
            rfl rfl rfl ?_ (fun h => ⟨released_early ha.tail h, ?_⟩)
          · split <;> omega
          · show (if tb + b.len ≤ t then b.amount i else 0) + _ = 0
            rw [if_neg (by omega), released_early hb.tail (by omega)]
        · split
          · rename_i hlt
            refine round (tb + b.len) ta (tb + b.len) 0 (b.amount i) A (B.add b.amount) (a :: as) bs
              (by simp only [List.length_cons]; omega) ha hb.tail (fun _ => Nat.le_refl _) (fun _ => Nat.le_add_right _ _)
              rfl rfl ?_ rfl (fun h => ⟨?_, released_early hb.tail h⟩)
            · split <;> omega
            · show (if ta + a.len ≤ t then a.amount i else 0) + _ = 0
              rw [if_neg (by omega), released_early ha.tail (by omega)]
          · have he : tb + b.len = ta + a.len := by omega
            refine round (ta + a.len) (ta + a.len) (ta + a.len) (a.amount i) (b.amount i) (A.add a.amount)
              (B.add b.amount) as bs (by omega) ha.tail hb.tail (fun _ => Nat.le_add_right _ _)
              (fun _ => Nat.le_add_right _ _) rfl rfl rfl ?_
              (fun h => ⟨released_early ha.tail h, released_early hb.tail h⟩)
            rw [← he]
            rfl

/-- The intersection of two schedules has released, at every time and for every denomination, the smaller of what the two
have released. -/
theorem intersection_releases_min {sa sb : Int} {as bs : List (Period n)} (ha : Forward as) (hb : Forward bs) (t : Int)
    (i : Fin n) :
    released t i (conjunct sa sb as bs).start (conjunct sa sb as bs).periods =
      min (released t i sa as) (released t i sb bs) := by
  have := conjunctLoop_released (f := as.length + bs.length) (ta := sa) (tb := sb) (last := min64 sa sb)
    (Nat.le_refl _) ha hb (rfl : (Coins.zero.min Coins.zero : Coins n) = _) t i
  have e1 : (Coins.zero.min Coins.zero : Coins n) = Coins.zero := by funext j; rfl
  rw [e1] at this
  have e2 : ∀ j : Fin n, (Coins.zero : Coins n) j = 0 := fun _ => rfl
  rw [e2] at this
  simp only [Nat.zero_add] at this
  exact this

example : (conjunct 0 4 (one1 [(10, 3), (5, 4)]) (one1 [(6, 1), (3, 7)])).periods.map (fun p => (p.len, p.amount 0)) =
    [(10, 1), (3, 2), (2, 4)] := by decide +kernel

end Vesting
