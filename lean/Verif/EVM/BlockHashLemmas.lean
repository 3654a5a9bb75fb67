import Verif.EVM.BlockHashSpec
/-!
# Lemmas about hashes of earlier blocks
-/

namespace BlockHash

theorem prune_above (i : Nat) : ∀ (f : Nat → Option Header) (k : Nat), i < k → prune i f k = f k := by
  induction i with
  | zero =>
    intro f k hk
    unfold prune
    cases f 0 with
    | none => rfl
    | some _ =>
      dsimp only [set]
      rw [if_neg (by omega)]
  | succ i ih =>
    intro f k hk
    unfold prune
    cases f (i + 1) with
    | none => rfl
    | some _ =>
      dsimp only
      rw [ih _ k (by omega)]
      dsimp only [set]
      rw [if_neg (by omega)]

theorem prune_sub (i : Nat) : ∀ (f : Nat → Option Header) (k : Nat) (x : Header), prune i f k = some x → f k = some x := by
  have hset : ∀ (f : Nat → Option Header) (j k : Nat) (x : Header), set f j none k = some x → f k = some x := by
    intro f j k x h
    unfold set at h
    split at h
    · cases h
    · exact h
  induction i with
  | zero =>
    intro f k x h
    unfold prune at h
    cases hf : f 0 with
    | none => rw [hf] at h; exact h
    | some _ => rw [hf] at h; exact hset f 0 k x h
  | succ i ih =>
    intro f k x h
    unfold prune at h
    cases hf : f (i + 1) with
    | none => rw [hf] at h; exact h
    | some _ => rw [hf] at h; exact hset f (i + 1) k x (ih _ k x h)

theorem run_append (e : Env) : ∀ (l r : List (Nat × Header)) (s : State), run e s (l ++ r) = run e (run e s l) r := by
  intro l
  induction l with
  | nil => intro r s; rfl
  | cons b l ih => intro r s; exact ih r _

theorem run_cur (e : Env) : ∀ (l : List (Nat × Header)) (s : State), (run e s l).cur = s.cur + l.length := by
  intro l
  induction l with
  | nil => intro s; rfl
  | cons b l ih =>
    intro s
    have := ih (block e s b.1 b.2)
    have hc : (block e s b.1 b.2).cur = s.cur + 1 := rfl
    rw [hc] at this
    show (run e (block e s b.1 b.2) l).cur = _
    rw [this, List.length_cons]
    omega

/-- Kept headers, and blocks, are those of blocks up to the current height. -/
def Sound (e : Env) (s : State) : Prop :=
  (∀ k x, s.infos k = some x → k ≤ s.cur ∧ ∃ h, s.blocks k = some h ∧ x = e.seen h) ∧
  (∀ k h, s.blocks k = some h → k ≤ s.cur)

theorem sound_block {e : Env} {s : State} (hs : Sound e s) (n : Nat) (h : Header) : Sound e (block e s n h) := by
  have hold : ∀ k x, s.infos k = some x → k ≤ s.cur + 1 ∧ ∃ h', set s.blocks (s.cur + 1) (some h) k = some h' ∧ x = e.seen h' := by
    intro k x hk
    obtain ⟨h1, h', h2, h3⟩ := hs.1 k x hk
    refine ⟨by omega, h', ?_, h3⟩
    unfold set
    rw [if_neg (by omega)]
    exact h2
  have hkept : ∀ k x, (if n ≤ s.cur + 1 then prune (s.cur + 1 - n) s.infos else s.infos) k = some x →
      s.infos k = some x := by
    intro k x hk
    split at hk
    · exact prune_sub _ _ _ _ hk
    · exact hk
  constructor
  · intro k x hk
    have hk' : (if n = 0 then (if n ≤ s.cur + 1 then prune (s.cur + 1 - n) s.infos else s.infos)
        else set (if n ≤ s.cur + 1 then prune (s.cur + 1 - n) s.infos else s.infos) (s.cur + 1) (some (e.seen h))) k
        = some x := hk
    by_cases hn : n = 0
    · rw [if_pos hn] at hk'
      exact hold k x (hkept k x hk')
    · rw [if_neg hn] at hk'
      unfold set at hk'
      split at hk'
      · rename_i hkc
        injection hk' with hk'
        refine ⟨by rw [hkc]; exact Nat.le_refl _, h, ?_, hk'.symm⟩
        show set s.blocks (s.cur + 1) (some h) k = some h
        unfold set
        rw [if_pos hkc]
      · exact hold k x (hkept k x hk')
  · intro k h' hk
    have hk' : set s.blocks (s.cur + 1) (some h) k = some h' := hk
    unfold set at hk'
    show k ≤ s.cur + 1
    split at hk'
    · omega
    · have := hs.2 k h' hk'
      omega

theorem sound_run {e : Env} : ∀ (l : List (Nat × Header)) {s : State}, Sound e s → Sound e (run e s l) := by
  intro l
  induction l with
  | nil => intro s hs; exact hs
  | cons b l ih => intro s hs; exact ih (sound_block hs b.1 b.2)

theorem sound_init (e : Env) (c : Nat) : Sound e { cur := c } :=
  ⟨fun _ _ h => (by cases h), fun _ _ h => (by cases h)⟩

theorem blocks_run {e : Env} : ∀ (l : List (Nat × Header)) (s : State) (k : Nat), k ≤ s.cur →
    (run e s l).blocks k = s.blocks k := by
  intro l
  induction l with
  | nil => intro s k _; rfl
  | cons b l ih =>
    intro s k hk
    have := ih (block e s b.1 b.2) k (by show k ≤ s.cur + 1; omega)
    show (run e (block e s b.1 b.2) l).blocks k = _
    rw [this]
    show set s.blocks (s.cur + 1) (some b.2) k = _
    unfold set
    rw [if_neg (by omega)]

theorem infos_run {e : Env} : ∀ (l : List (Nat × Header)) (s : State) (k : Nat), k ≤ s.cur →
    (∀ b ∈ l, 257 ≤ b.1) → s.cur + l.length ≤ k + 256 → (run e s l).infos k = s.infos k := by
  intro l
  induction l with
  | nil => intro s k _ _ _; rfl
  | cons b l ih =>
    intro s k hk hn hlen
    have h257 := hn b (List.mem_cons_self ..)
    rw [List.length_cons] at hlen
    have := ih (block e s b.1 b.2) k (by show k ≤ s.cur + 1; omega)
      (fun x hx => hn x (List.mem_cons_of_mem _ hx)) (by show s.cur + 1 + l.length ≤ _; omega)
    show (run e (block e s b.1 b.2) l).infos k = _
    rw [this]
    show (if b.1 = 0 then (if b.1 ≤ s.cur + 1 then prune (s.cur + 1 - b.1) s.infos else s.infos)
      else set (if b.1 ≤ s.cur + 1 then prune (s.cur + 1 - b.1) s.infos else s.infos) (s.cur + 1) (some (e.seen b.2))) k = _
    rw [if_neg (by omega)]
    unfold set
    rw [if_neg (by omega)]
    split
    · exact prune_above _ _ _ (by omega)
    · rfl

theorem opcode_in {e : Env} {s : State} {k : Nat} (hr : Recent s k) (hk : k ≤ 18446744073709551615) :
    opcode e s k = hashFn e s k := by
  unfold Recent at hr
  have hl : (if s.cur < 257 then 0 else s.cur - 256) ≤ k := by split <;> omega
  unfold opcode
  dsimp only
  rw [if_neg (show ¬ 18446744073709551615 < k by omega), if_pos ⟨hl, hr.1⟩]

theorem opcode_out {e : Env} {s : State} {k : Nat} (h : ¬ Recent s k) : opcode e s k = 0 := by
  unfold Recent at h
  have hl : ¬ ((if s.cur < 257 then 0 else s.cur - 256) ≤ k ∧ k < s.cur) := by
    rintro ⟨h1, h2⟩
    split at h1 <;> omega
  unfold opcode
  dsimp only
  rw [if_neg hl]
  split <;> rfl

theorem opcode_far {e : Env} {s : State} {k : Nat} (h : 9223372036854775807 < k) : opcode e s k = 0 := by
  by_cases hr : Recent s k
  · by_cases hk : k ≤ 18446744073709551615
    · rw [opcode_in hr hk]
      unfold hashFn
      rw [if_pos h]
    · unfold opcode
      dsimp only
      rw [if_pos (show 18446744073709551615 < k by omega)]
  · exact opcode_out hr

theorem opcode_recent {e : Env} {s : State} {k : Nat} (hr : Recent s k) (hk : k ≤ 9223372036854775807) :
    opcode e s k = match s.infos k with
      | none => 0
      | some x => if valid e x then headerHash e x else 0 := by
  rw [opcode_in hr (by omega)]
  unfold Recent at hr
  unfold hashFn
  rw [if_neg (show ¬ 9223372036854775807 < k by omega), if_neg (show ¬ s.cur = k by omega), if_pos hr.1]
  cases s.infos k <;> rfl

end BlockHash
