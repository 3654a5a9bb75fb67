import Verif.Epochs.Epochs
/-!
# Properties of epochs (C36)
-/
namespace Epochs

/-- One epoch over a list of blocks. -/
def runOne (e : Info) : List Block → Info × List Hook
  | [] => (e, [])
  | b :: bs => ((runOne (tick e b).1 bs).1, (tick e b).2 ++ (runOne (tick e b).1 bs).2)

/-- The hooks of one identifier. -/
def Hook.id : Hook → Nat
  | .after i _ => i
  | .before i _ => i

/-- The numbers of the epochs that were started. -/
def started : List Hook → List Nat
  | [] => []
  | .before _ k :: hs => k :: started hs
  | .after _ _ :: hs => started hs

theorem started_append (as bs : List Hook) : started (as ++ bs) = started as ++ started bs := by
  induction as with
  | nil => rfl
  | cons a as ih =>
    cases a with
    | after i k => exact ih
    | before i k =>
      show k :: started (as ++ bs) = k :: (started as ++ started bs)
      rw [ih]

theorem tick_id (e : Info) (b : Block) : (tick e b).1.id = e.id ∧ (tick e b).1.start = e.start ∧
    (tick e b).1.duration = e.duration ∧ ∀ h ∈ (tick e b).2, h.id = e.id := by
  unfold tick
  split
  · refine ⟨rfl, rfl, rfl, fun h hh => ?_⟩
    rcases List.mem_singleton.1 hh with rfl
    rfl
  · split
    · refine ⟨rfl, rfl, rfl, fun h hh => ?_⟩
      simp only [List.mem_cons, List.not_mem_nil, or_false] at hh
      rcases hh with rfl | rfl <;> rfl
    · exact ⟨rfl, rfl, rfl, fun h hh => by cases hh⟩

theorem runOne_id (e : Info) (bs : List Block) : (runOne e bs).1.id = e.id ∧ (runOne e bs).1.start = e.start ∧
    (runOne e bs).1.duration = e.duration := by
  induction bs generalizing e with
  | nil => exact ⟨rfl, rfl, rfl⟩
  | cons b bs ih =>
    obtain ⟨h1, h2, h3⟩ := ih (tick e b).1
    obtain ⟨t1, t2, t3, _⟩ := tick_id e b
    exact ⟨h1.trans t1, h2.trans t2, h3.trans t3⟩

theorem filter_eq_of_ids {hs : List Hook} {k : Nat} (h : ∀ x ∈ hs, x.id = k) (i : Nat) :
    hs.filter (fun x => x.id = i) = if k = i then hs else [] := by
  split
  · rename_i e
    exact List.filter_eq_self.2 (fun x hx => decide_eq_true ((h x hx).trans e))
  · rename_i e
    refine List.filter_eq_nil_iff.2 (fun x hx hh => ?_)
    have := of_decide_eq_true hh
    exact e ((h x hx).symm.trans this)

theorem beginBlock_filter {es : List Info} (hd : (es.map Info.id).Nodup) {e : Info} (he : e ∈ es) (b : Block) :
    (beginBlock es b).2.filter (fun h => h.id = e.id) = (tick e b).2 := by
  unfold beginBlock
  dsimp only
  induction es with
  | nil => cases he
  | cons x es ih =>
    rw [List.map_cons, List.flatten_cons, List.filter_append, filter_eq_of_ids (tick_id x b).2.2.2]
    obtain ⟨hn, hd'⟩ := List.nodup_cons.1 hd
    rcases List.mem_cons.1 he with rfl | he
    · rw [if_pos rfl]
      have : (es.map (fun e => (tick e b).2)).flatten.filter (fun h => h.id = e.id) = [] := by
        refine List.filter_eq_nil_iff.2 (fun h hh hx => ?_)
        obtain ⟨l, hl, hh⟩ := List.mem_flatten.1 hh
        obtain ⟨y, hy, rfl⟩ := List.mem_map.1 hl
        have h1 := (tick_id y b).2.2.2 h hh
        have h2 := of_decide_eq_true hx
        exact hn (List.mem_map.2 ⟨y, hy, h1.symm.trans h2⟩)
      rw [this, List.append_nil]
    · have hne : x.id ≠ e.id := fun hx => hn (List.mem_map.2 ⟨e, he, hx.symm⟩)
      rw [if_neg hne, ih hd' he]
      rfl

/-- Epochs with different identifiers do not influence each other: for each of them, state and hooks are those it would have
alone. -/
theorem epochs_independent {es : List Info} (hd : (es.map Info.id).Nodup) {e : Info} (he : e ∈ es) (bs : List Block) :
    (runOne e bs).1 ∈ (run es bs).1 ∧ (run es bs).2.filter (fun h => h.id = e.id) = (runOne e bs).2 := by
  induction bs generalizing es e with
  | nil => exact ⟨he, rfl⟩
  | cons b bs ih =>
    have hm : (tick e b).1 ∈ (beginBlock es b).1 := List.mem_map.2 ⟨e, he, rfl⟩
    have hd' : ((beginBlock es b).1.map Info.id).Nodup := by
      show ((es.map (fun e => (tick e b).1)).map Info.id).Nodup
      have : (es.map (Info.id ∘ fun e => (tick e b).1)) = es.map Info.id := List.map_congr_left (fun x _ => (tick_id x b).1)
      rw [List.map_map, this]
      exact hd
    obtain ⟨h1, h2⟩ := ih hd' hm
    refine ⟨h1, ?_⟩
    show ((beginBlock es b).2 ++ (run (beginBlock es b).1 bs).2).filter _ = (tick e b).2 ++ (runOne (tick e b).1 bs).2
    rw [(tick_id e b).1] at h2
    rw [List.filter_append, beginBlock_filter hd he, h2]

/-- An epoch as in a fresh genesis, or as reached from one: before its start it has number 0; later the current epoch started
a whole number of durations after the start. -/
def Regular (e : Info) : Prop :=
  if e.counting then 1 ≤ e.epoch ∧ e.epochStart = e.start + (e.epoch - 1 : Nat) * e.duration else e.epoch = 0

theorem tick_regular {e : Info} (b : Block) (h : Regular e) : Regular (tick e b).1 := by
  unfold tick
  split
  · show 1 ≤ 1 ∧ e.start = e.start + ((1 - 1 : Nat) : Int) * e.duration
    exact ⟨Nat.le_refl _, by simp⟩
  · split
    · rename_i h1 h2
      unfold shouldEnd shouldStart at h2
      unfold shouldStart at h1
      simp only [Bool.and_eq_true, Bool.not_eq_true', decide_eq_true_eq, decide_eq_false_iff_not, Bool.not_eq_false',
        Bool.and_eq_false_iff, Bool.not_eq_true, Bool.not_eq_false] at h1 h2
      have hc : e.counting = true := by
        cases hx : e.counting with
        | true => rfl
        | false => exact (h1 ⟨hx, h2.2⟩).elim
      unfold Regular at h ⊢
      rw [if_pos hc] at h
      show if e.counting then 1 ≤ e.epoch + 1 ∧ e.epochStart + e.duration =
        e.start + ((e.epoch + 1 - 1 : Nat) : Int) * e.duration else e.epoch + 1 = 0
      rw [if_pos hc]
      refine ⟨by omega, ?_⟩
      rw [h.2, show e.epoch + 1 - 1 = (e.epoch - 1) + 1 by omega, Int.natCast_add, Int.add_mul]
      show _ = _ + (_ + 1 * e.duration)
      omega
    · exact h

/-- The current epoch always started a whole number of durations after the start. -/
theorem starts_on_grid {e : Info} (h : Regular e) (bs : List Block) : Regular (runOne e bs).1 := by
  induction bs generalizing e with
  | nil => exact h
  | cons b bs ih => exact ih (tick_regular b h)

/-- What one block does: the number stays or grows by one, and it grows exactly if the epoch has not begun counting and its
start has come, or its full duration has passed. -/
theorem one_step {e : Info} (h : Regular e) (b : Block) :
    ((tick e b).1.epoch = e.epoch ∨ (tick e b).1.epoch = e.epoch + 1) ∧
      ((tick e b).1.epoch = e.epoch + 1 ↔
        if e.counting then e.start ≤ b.time ∧ e.start + e.epoch * e.duration < b.time else e.start ≤ b.time) := by
  unfold Regular at h
  unfold tick shouldEnd shouldStart
  cases hc : e.counting with
  | false =>
    rw [hc] at h
    have h : e.epoch = 0 := h
    by_cases hs : b.time < e.start
    · simp [hs]
    · simp [hs, Info.startInitial, h]
      omega
  | true =>
    rw [hc] at h
    have h : 1 ≤ e.epoch ∧ e.epochStart = e.start + (e.epoch - 1 : Nat) * e.duration := h
    have he : e.epochStart + e.duration = e.start + e.epoch * e.duration := by
      rw [h.2]
      obtain ⟨k, hk⟩ : ∃ k, e.epoch = k + 1 := ⟨e.epoch - 1, by omega⟩
      rw [hk, Nat.add_sub_cancel, Int.natCast_add, Int.add_mul]
      show _ = _ + (_ + 1 * e.duration)
      omega
    rw [he]
    by_cases hs : b.time < e.start
    · simp [hs]
      omega
    · by_cases ht : e.start + ↑e.epoch * e.duration < b.time
      · simp [hs, ht, Info.endEpoch]
        omega
      · simp [hs, ht]

/-- Each epoch number is started exactly once and in order, without gaps; the number of the epoch is how many have been
started. -/
theorem started_in_order {e : Info} (h : Regular e) (bs : List Block) :
    started (runOne e bs).2 = List.range' (e.epoch + 1) ((runOne e bs).1.epoch - e.epoch) ∧
      e.epoch ≤ (runOne e bs).1.epoch := by
  induction bs generalizing e with
  | nil =>
    show [] = List.range' _ (e.epoch - e.epoch) ∧ _
    rw [Nat.sub_self]
    exact ⟨rfl, Nat.le_refl _⟩
  | cons b bs ih =>
    obtain ⟨h1, h2⟩ := ih (tick_regular b h)
    have hk : (started (tick e b).2 = [] ∧ (tick e b).1.epoch = e.epoch) ∨
        (started (tick e b).2 = [e.epoch + 1] ∧ (tick e b).1.epoch = e.epoch + 1) := by
      have h0 := h
      unfold Regular at h0
      unfold tick
      split
      · rename_i hs
        right
        have hc : e.counting = false := by
          unfold shouldStart at hs
          cases hx : e.counting with
          | false => rfl
          | true => rw [hx] at hs; cases hs
        rw [hc] at h0
        have h0 : e.epoch = 0 := h0
        rw [h0]
        exact ⟨rfl, rfl⟩
      · split
        · exact .inr ⟨rfl, rfl⟩
        · exact .inl ⟨rfl, rfl⟩
    show started ((tick e b).2 ++ _) = List.range' _ ((runOne (tick e b).1 bs).1.epoch - _) ∧ _ ≤ (runOne (tick e b).1 bs).1.epoch
    rw [started_append, h1]
    rcases hk with ⟨k1, k2⟩ | ⟨k1, k2⟩
    · rw [k2] at h2
      rw [k1, k2]
      exact ⟨rfl, h2⟩
    · rw [k2] at h2
      rw [k1, k2]
      refine ⟨?_, by omega⟩
      rw [show (runOne (tick e b).1 bs).1.epoch - e.epoch = ((runOne (tick e b).1 bs).1.epoch - (e.epoch + 1)) + 1 by omega,
        List.range'_succ]
      rfl

/-- Never early: if all block times are at most `t`, the number reached is 0, or 1 after the start has come, or its epoch began
before `t`. -/
theorem never_early {e : Info} (h : Regular e) {t : Int} {bs : List Block} (ht : ∀ b ∈ bs, b.time ≤ t)
    (he : e.epoch ≤ 1 ∨ e.start + (e.epoch - 1 : Nat) * e.duration < t) :
    (runOne e bs).1.epoch ≤ 1 ∨ e.start + ((runOne e bs).1.epoch - 1 : Nat) * e.duration < t := by
  induction bs generalizing e with
  | nil => exact he
  | cons b bs ih =>
    have hb := ht b List.mem_cons_self
    obtain ⟨_, t2, t3, _⟩ := tick_id e b
    have := ih (tick_regular b h) (fun b hb => ht b (List.mem_cons_of_mem _ hb))
    rw [t2, t3] at this
    apply this
    obtain ⟨s1, s2⟩ := one_step h b
    rcases s1 with s1 | s1
    · rw [s1]; exact he
    · have s2 := s2.1 s1
      rw [s1]
      split at s2
      · right
        rw [Nat.add_sub_cancel]
        omega
      · rename_i hc
        unfold Regular at h
        rw [if_neg hc] at h
        left
        omega

/-- Never late: with a positive duration, blocks after the end of epoch `m` bring the number to at least `m + 1`, one epoch per
block. -/
theorem catches_up {e : Info} (h : Regular e) (hd : 0 < e.duration) {m : Nat} {bs : List Block}
    (ht : ∀ b ∈ bs, e.start + m * e.duration < b.time) :
    e.epoch + bs.length ≤ (runOne e bs).1.epoch ∨ m + 1 ≤ (runOne e bs).1.epoch := by
  induction bs generalizing e with
  | nil => exact .inl (Nat.le_refl _)
  | cons b bs ih =>
    have hb := ht b List.mem_cons_self
    obtain ⟨_, t2, t3, _⟩ := tick_id e b
    have := ih (tick_regular b h) (by rw [t3]; exact hd)
      (by rw [t2, t3]; exact fun b hb => ht b (List.mem_cons_of_mem _ hb))
    show e.epoch + (bs.length + 1) ≤ (runOne (tick e b).1 bs).1.epoch ∨ m + 1 ≤ (runOne (tick e b).1 bs).1.epoch
    obtain ⟨s1, s2⟩ := one_step h b
    by_cases hm : m + 1 ≤ e.epoch
    · right
      have := (started_in_order (tick_regular b h) bs).2
      omega
    · have h0 : 0 ≤ (m : Int) * e.duration := Int.mul_nonneg (by omega) (by omega)
      have hg : (tick e b).1.epoch = e.epoch + 1 := by
        rw [s2]
        split
        · have h1 : (e.epoch : Int) * e.duration ≤ m * e.duration := Int.mul_le_mul_of_nonneg_right (by omega) (by omega)
          omega
        · omega
      omega

/-- Once a block changes nothing, the number is the right one: the current epoch has not ended. -/
theorem right_when_settled {e : Info} (h : Regular e) (hc : e.counting = true) {b : Block} (hs : e.start ≤ b.time)
    (hb : (tick e b).1.epoch = e.epoch) : b.time ≤ e.start + e.epoch * e.duration := by
  obtain ⟨_, s2⟩ := one_step h b
  rw [hc, if_pos rfl] at s2
  have : ¬ (e.start ≤ b.time ∧ e.start + ↑e.epoch * e.duration < b.time) := fun hx => by
    have := s2.2 hx
    omega
  omega

/-- Days, started at 1000. -/
def days : Info := ⟨0, 1000, 100, 0, 0, 0, false⟩

example : Regular days ∧ (runOne days [⟨500, 1⟩, ⟨1000, 2⟩, ⟨1100, 3⟩, ⟨1350, 4⟩, ⟨1351, 5⟩, ⟨1352, 6⟩, ⟨1353, 7⟩]).1.epoch = 4 ∧
    started (runOne days [⟨500, 1⟩, ⟨1000, 2⟩, ⟨1100, 3⟩, ⟨1350, 4⟩, ⟨1351, 5⟩, ⟨1352, 6⟩, ⟨1353, 7⟩]).2 = [1, 2, 3, 4] :=
  ⟨rfl, by decide +kernel⟩

/-- The hook after the end of an epoch is given the number of the next epoch, not of the one that ended. -/
theorem end_hook_has_next_number {e : Info} {b : Block} {i k : Nat} (h : Hook.after i k ∈ (tick e b).2) :
    k = (tick e b).1.epoch ∧ k = e.epoch + 1 := by
  unfold tick at h ⊢
  split at h
  · rename_i hs
    simp only [List.mem_cons, List.not_mem_nil, or_false] at h
    cases h
  · split at h
    · rename_i hs he
      simp only [List.mem_cons, List.not_mem_nil, or_false] at h
      rcases h with h | h
      · cases h
        rw [if_neg hs, if_pos he]
        exact ⟨rfl, rfl⟩
      · cases h
    · cases h

/-- The full property asks that an epoch ends only after its duration; a negative duration passes validation, and then every
block ends an epoch. -/
theorem negative_duration_accepted :
    ({ days with duration := -1 }).validate = true ∧
      (runOne { days with duration := -1 } [⟨1000, 1⟩, ⟨1000, 2⟩, ⟨1000, 3⟩]).1.epoch = 3 := by decide +kernel

/-- A genesis with a positive number for an epoch that has not started is accepted as well; its number falls when it
starts. -/
theorem number_may_fall :
    ({ days with epoch := 7 }).validate = true ∧ (tick { days with epoch := 7 } ⟨1000, 1⟩).1.epoch = 1 := by decide +kernel

end Epochs
