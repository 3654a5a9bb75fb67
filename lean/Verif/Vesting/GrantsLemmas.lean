import Verif.Vesting.GrantsSpec
/-!
# Vesting accounts on the chain: lemmas
-/
namespace Grant
open Vesting

variable {n : Nat}

theorem upd_eq {β : Type} (f : Nat → β) (a : Nat) (b : β) : upd f a b a = b := if_pos rfl
theorem upd_ne {β : Type} {f : Nat → β} {a x : Nat} {b : β} (h : x ≠ a) : upd f a b x = f x := if_neg h

theorem vestedBy_eq {a : Account n} (g : Good a) (t : Int) (i : Fin n) : a.vested t i = vestedBy a t i := vested_spec g t i
theorem unlockedBy_eq {a : Account n} (g : Good a) (t : Int) (i : Fin n) : a.unlocked t i = unlockedBy a t i := unlocked_spec g t i

theorem unvested_eq {a : Account n} (g : Good a) (t : Int) (i : Fin n) : a.unvested t i = a.original i - vestedBy a t i := by
  show a.original i - a.vested t i = _
  rw [vestedBy_eq g]

/-- What a transfer does. -/
theorem send_some {s s' : State n} {src dst : Nat} {c : Coins n} (h : send s src dst c = some s') :
    (∀ i, c i = 0 ∨ c i + (s.accs src).locked s.now i ≤ s.bal src i) ∧
      s' = { s with bal := upd (upd s.bal src ((s.bal src).sub c)) dst ((upd s.bal src ((s.bal src).sub c) dst).add c) } := by
  unfold send at h
  split at h
  · rename_i hc
    exact ⟨hc, (Option.some.inj h).symm⟩
  · cases h

theorem send_le {s s' : State n} {src dst : Nat} {c : Coins n} (h : send s src dst c = some s') (i : Fin n) : c i ≤ s.bal src i := by
  rcases (send_some h).1 i with h1 | h1 <;> omega

theorem send_other {s s' : State n} {src dst : Nat} {c : Coins n} (h : send s src dst c = some s') {x : Nat} (hx : x ≠ src) (i : Fin n) :
    s'.bal x i = s.bal x i + (if x = dst then c i else 0) := by
  rw [(send_some h).2]
  show upd (upd s.bal src ((s.bal src).sub c)) dst ((upd s.bal src ((s.bal src).sub c) dst).add c) x i = _
  by_cases hd : x = dst
  · subst hd
    rw [upd_eq, upd_ne hx, if_pos rfl]
    rfl
  · rw [upd_ne hd, upd_ne hx, if_neg hd, Nat.add_zero]

theorem send_src {s s' : State n} {src dst : Nat} {c : Coins n} (h : send s src dst c = some s') (i : Fin n) :
    s'.bal src i + c i = s.bal src i + (if src = dst then c i else 0) := by
  have hle := send_le h i
  rw [(send_some h).2]
  show upd (upd s.bal src ((s.bal src).sub c)) dst ((upd s.bal src ((s.bal src).sub c) dst).add c) src i + _ = _
  by_cases hd : src = dst
  · subst hd
    rw [upd_eq, upd_eq, if_pos rfl]
    show s.bal src i - c i + c i + c i = _
    omega
  · rw [upd_ne hd, upd_eq, if_neg hd]
    show s.bal src i - c i + c i = _
    omega

theorem send_accs {s s' : State n} {src dst : Nat} {c : Coins n} (h : send s src dst c = some s') :
    s'.accs = s.accs ∧ s'.now = s.now ∧ s'.noGov = s.noGov ∧ s'.active = s.active ∧ s'.staked = s.staked := by
  rw [(send_some h).2]
  exact ⟨rfl, rfl, rfl, rfl, rfl⟩

/-- A transfer leaves the account of the sender what is not vested. -/
theorem send_leaves {s s' : State n} {src dst : Nat} {c : Coins n} (h : send s src dst c = some s') {f : Nat} {a : Account n}
    (ha : s.accs src = .grant f a) (g : Good a) (i : Fin n) :
    c i = 0 ∨ a.original i - vestedBy a s.now i + c i ≤ s.bal src i := by
  rcases (send_some h).1 i with h1 | h1
  · exact .inl h1
  · right
    rw [ha] at h1
    have := (locked_spec g s.now i).2.1
    rw [vestedBy_eq g] at this
    have e : (Kind.grant f a).locked s.now i = a.locked s.now i := rfl
    rw [e] at h1
    omega

theorem Held.sent {s s' : State n} (hs : Held s) {src dst : Nat} {c : Coins n} (h : send s src dst c = some s') : Held s' := by
  intro x f a ha
  obtain ⟨e1, e2, _⟩ := send_accs h
  rw [e1] at ha
  obtain ⟨g, hb⟩ := hs x f a ha
  refine ⟨g, fun i => ?_⟩
  rw [e2]
  have hbi := hb i
  by_cases hx : x = src
  · subst hx
    have h1 := send_src h i
    rcases send_leaves h ha g i with h2 | h2
    · omega
    · omega
  · have := send_other h hx i
    omega

/-- What the checks of the message give for the periods used. -/
theorem periods_used {l v : List (Period n)} (h : periodsOk l v = true) :
    (∀ p ∈ l, 1 ≤ p.len) ∧ (∀ p ∈ v, 1 ≤ p.len) ∧ (l ≠ [] → v ≠ [] → ∀ i, totalAmount l i = totalAmount v i) ∧
      ((∃ i, totalAmount l i ≠ 0) ∨ ∃ i, totalAmount v i ≠ 0) := by
  have zero : ∀ c : Coins n, c.isZero = false → ∃ i, c i ≠ 0 := by
    intro c hc
    unfold Coins.isZero at hc
    exact Classical.not_forall.1 (of_decide_eq_false hc)
  unfold periodsOk at h
  split at h
  · cases h
  rename_i h1
  split at h
  · cases h
  rename_i h2
  split at h
  · cases h
  rename_i h3
  split at h
  · cases h
  rename_i h4
  refine ⟨?_, ?_, ?_, ?_⟩
  · intro p hp
    by_cases hc : p.len < 1
    · exact absurd (List.any_eq_true.2 ⟨p, hp, decide_eq_true hc⟩) h1
    · omega
  · intro p hp
    by_cases hc : p.len < 1
    · exact absurd (List.any_eq_true.2 ⟨p, hp, decide_eq_true hc⟩) h2
    · omega
  · intro hl hv
    have e1 : l.isEmpty = false := by cases l with | nil => exact absurd rfl hl | cons _ _ => rfl
    have e2 : v.isEmpty = false := by cases v with | nil => exact absurd rfl hv | cons _ _ => rfl
    rw [e1, e2] at h4
    cases he : Coins.eq (totalAmount l) (totalAmount v) with
    | true => exact (eq_spec _ _).1 he
    | false => rw [he] at h4; exact absurd rfl h4
  · cases hl : (totalAmount l).isZero with
    | false => exact .inl (zero _ hl)
    | true =>
      cases hv : (totalAmount v).isZero with
      | false => exact .inr (zero _ hv)
      | true => rw [hl, hv] at h3; exact absurd rfl h3

/-- The periods a grant is stored with. -/
def lockupOf (l v : List (Period n)) : List (Period n) := if l.isEmpty then [⟨0, totalAmount v⟩] else l
def vestingOf (l v : List (Period n)) : List (Period n) := if v.isEmpty then [⟨0, totalAmount l⟩] else v

theorem isZero_nil : (totalAmount ([] : List (Period n))).isZero = true := decide_eq_true (fun _ => rfl)

theorem not_zero {c : Coins n} (h : ∃ i, c i ≠ 0) : c.isZero = false := by
  obtain ⟨i, hi⟩ := h
  exact decide_eq_false (fun hc => hi (hc i))

theorem lockup_used {l v : List (Period n)} (h : periodsOk l v = true) :
    (if !(totalAmount v).isZero && l.isEmpty then [⟨0, totalAmount v⟩] else l) = lockupOf l v := by
  obtain ⟨_, _, _, h4⟩ := periods_used h
  unfold lockupOf
  cases l with
  | nil =>
    rcases h4 with ⟨i, hi⟩ | h4
    · exact absurd rfl hi
    · rw [not_zero h4]; rfl
  | cons p l => cases hz : (totalAmount v).isZero <;> rfl

theorem vesting_used {l v : List (Period n)} (h : periodsOk l v = true) :
    (if !(totalAmount (lockupOf l v)).isZero && v.isEmpty then [⟨0, totalAmount (lockupOf l v)⟩] else v) = vestingOf l v := by
  obtain ⟨_, _, _, h4⟩ := periods_used h
  unfold vestingOf
  cases v with
  | nil =>
    cases l with
    | nil =>
      rcases h4 with ⟨i, hi⟩ | ⟨i, hi⟩
      · exact absurd rfl hi
      · exact absurd rfl hi
    | cons p l =>
      have e : lockupOf (p :: l) [] = p :: l := rfl
      rw [e]
      rcases h4 with h4 | ⟨i, hi⟩
      · rw [not_zero h4]; rfl
      · exact absurd rfl hi
  | cons p v => cases hz : (totalAmount (lockupOf l (p :: v))).isZero <;> rfl

theorem used_good {l v : List (Period n)} (h : periodsOk l v = true) :
    Forward (lockupOf l v) ∧ Forward (vestingOf l v) ∧
      (∀ i, totalAmount (lockupOf l v) i = totalAmount (vestingOf l v) i) ∧ vestingOf l v ≠ [] ∧
      (∀ i, totalAmount (vestingOf l v) i = if v.isEmpty then totalAmount l i else totalAmount v i) := by
  obtain ⟨h1, h2, h3, _⟩ := periods_used h
  have f0 : ∀ c : Coins n, Forward [(⟨0, c⟩ : Period n)] := fun c => Forward.cons (Int.le_refl _) forward_nil
  unfold lockupOf vestingOf
  cases l with
  | nil =>
    cases v with
    | nil =>
      refine ⟨f0 _, f0 _, fun i => rfl, (by intro hc; cases hc), fun i => ?_⟩
      show 0 + 0 = 0
      rfl
    | cons p v =>
      refine ⟨f0 _, fun q hq => (by have := h2 q hq; omega), fun i => ?_, (by intro hc; cases hc), fun i => rfl⟩
      show totalAmount (p :: v) i + 0 = totalAmount (p :: v) i
      rfl
  | cons q l =>
    cases v with
    | nil =>
      refine ⟨fun r hr => (by have := h1 r hr; omega), f0 _, fun i => ?_, (by intro hc; cases hc), fun i => ?_⟩
      · show totalAmount (q :: l) i = totalAmount (q :: l) i + 0
        rfl
      · show totalAmount (q :: l) i + 0 = totalAmount (q :: l) i
        rfl
    | cons p v =>
      exact ⟨fun r hr => (by have := h1 r hr; omega), fun r hr => (by have := h2 r hr; omega),
        h3 (by intro hc; cases hc) (by intro hc; cases hc), (by intro hc; cases hc), fun i => rfl⟩

/-- What funding does. -/
theorem fund_some {e : Env n} {s s' : State n} {p x : Nat} {t : Int} {l v : List (Period n)} (h : fund e s p x t l v = some s') :
    periodsOk l v = true ∧ x ≠ 0 ∧ e.blocked x = false ∧
      ∃ a a', s.accs x = .grant p a ∧ a.addGrant t (lockupOf l v) (vestingOf l v) (totalAmount (vestingOf l v)) = some a' ∧
        send { s with accs := upd s.accs x (.grant p a') } p x (totalAmount (vestingOf l v)) = some s' := by
  unfold fund at h
  split at h
  · cases h
  rename_i h0
  split at h
  · cases h
  rename_i h1
  have hp : periodsOk l v = true := by
    cases hc : periodsOk l v with
    | true => rfl
    | false => exact absurd hc h1
  split at h
  · cases h
  rename_i h2
  split at h
  · rename_i f a ha
    simp only [lockup_used hp, vesting_used hp] at h
    split at h
    · cases h
    rename_i hf
    have hf' : p = f := Decidable.not_not.1 hf
    subst hf'
    split at h
    · cases h
    · rename_i a' ha'
      exact ⟨hp, h0, by simpa using h2, a, a', ha, ha', h⟩
  · cases h

theorem grant_vests {a a' : Account n} (g : Good a) {t : Int} {l v : List (Period n)} (hp : periodsOk l v = true)
    (h : a.addGrant t (lockupOf l v) (vestingOf l v) (totalAmount (vestingOf l v)) = some a') :
    Good a' ∧ (∀ i, a'.original i = a.original i + totalAmount (vestingOf l v) i) ∧
      (∀ now i, vestedBy a now i ≤ vestedBy a' now i) ∧
      (∀ now i, a.start < now → t < now → vestedBy a' now i = vestedBy a now i + released now i t (vestingOf l v)) := by
  obtain ⟨u1, u2, u3, _, _⟩ := used_good hp
  obtain ⟨b, hb, gb, ob, vb⟩ := grant_adds g (gs := t) u1 u2 u3 (fun i => rfl)
  rw [h] at hb
  have hb' := Option.some.inj hb
  subst hb'
  refine ⟨gb, ob, fun now i => ?_, fun now i h1 h2 => ?_⟩
  · by_cases hm : min (a.base t) t < now
    · rw [← vestedBy_eq gb, (vb now i hm).1]
      by_cases hs : a.start < now
      · unfold vestedBy
        rw [if_pos hs]
        unfold Account.base
        split
        · rename_i he
          have : a.vesting = [] := by
            cases hv : a.vesting with
            | nil => rfl
            | cons q r => rw [hv] at he; simp at he
          rw [this]
          exact Nat.zero_le _
        · exact Nat.le_add_right _ _
      · unfold vestedBy
        rw [if_neg hs]
        exact Nat.zero_le _
    · have : vestedBy a now i = 0 := by
        unfold vestedBy
        unfold Account.base at hm
        split
        · split at hm
          · rename_i he
            have : a.vesting = [] := by
              cases hv : a.vesting with
              | nil => rfl
              | cons q r => rw [hv] at he; simp at he
            rw [this]
            rfl
          · omega
        · rfl
      omega
  · rw [← vestedBy_eq gb, (vb now i (by omega)).1]
    unfold vestedBy
    rw [if_pos h1]
    congr 1
    unfold Account.base
    split
    · rename_i he
      have : a.vesting = [] := by
        cases hv : a.vesting with
        | nil => rfl
        | cons q r => rw [hv] at he; simp at he
      rw [this]
      rfl
    · rfl

theorem Held.funded {e : Env n} {s s' : State n} (hs : Held s) {p x : Nat} {t : Int} {l v : List (Period n)}
    (h : fund e s p x t l v = some s') : Held s' := by
  obtain ⟨hp, _, _, a, a', ha, ha', hsend⟩ := fund_some h
  obtain ⟨g, hb⟩ := hs x p a ha
  obtain ⟨g', o', v', _⟩ := grant_vests g hp ha'
  obtain ⟨e1, e2, _⟩ := send_accs hsend
  intro y f b hy
  rw [e1] at hy
  rw [e2]
  by_cases hyx : y = x
  · subst hyx
    have hy' : (upd s.accs y (.grant p a')) y = .grant f b := hy
    rw [upd_eq] at hy'
    cases hy'
    refine ⟨g', fun i => ?_⟩
    show a'.original i - vestedBy a' s.now i ≤ _
    have hbi := hb i
    have hoi := o' i
    have hvi := v' s.now i
    by_cases hpy : y = p
    · subst hpy
      have h1 := send_src hsend i
      have h2 := send_leaves hsend (f := y) (a := a') (upd_eq _ _ _) g' i
      rw [if_pos rfl] at h1
      dsimp only at h1 h2
      omega
    · have h1 := send_other hsend hpy i
      rw [if_pos rfl] at h1
      dsimp only at h1
      omega
  · have hy' : s.accs y = .grant f b := by
      have : (upd s.accs x (.grant p a')) y = .grant f b := hy
      rwa [upd_ne hyx] at this
    obtain ⟨gy, hby⟩ := hs y f b hy'
    refine ⟨gy, fun i => ?_⟩
    show b.original i - vestedBy b s.now i ≤ _
    have hbi := hby i
    by_cases hpy : y = p
    · subst hpy
      have h1 := send_src hsend i
      have h2 := send_leaves hsend (f := f) (a := b) (by show upd _ x _ y = _; rw [upd_ne hyx]; exact hy') gy i
      rw [if_neg hyx] at h1
      dsimp only at h1 h2
      omega
    · have h1 := send_other hsend hpy i
      dsimp only at h1
      omega

theorem Held.plain {s : State n} (hs : Held s) (x : Nat) (k : Kind n) (hk : ∀ f a, k ≠ .grant f a) (ng : Nat → Bool) :
    Held { s with accs := upd s.accs x k, noGov := ng } := by
  intro y f a hy
  by_cases hyx : y = x
  · subst hyx
    have hy' : (upd s.accs y k) y = .grant f a := hy
    rw [upd_eq] at hy'
    exact absurd hy' (hk f a)
  · have hy' : (upd s.accs x k) y = .grant f a := hy
    rw [upd_ne hyx] at hy'
    exact hs y f a hy'

theorem clawback_some {e : Env n} {s s' : State n} {p x : Nat} {d : Option Nat} (h : clawback e s p x d = some s') :
    ∃ f a, s.accs x = .grant f a ∧ ¬ (a.vesting = [] ∧ a.lockup = []) ∧
      ((p = e.authority ∧ s.noGov x = false ∧ takeBack s x a e.pool = some s') ∨
        (p ≠ e.authority ∧ p = f ∧ s.active x = false ∧ e.blocked (d.getD p) = false ∧ takeBack s x a (d.getD p) = some s')) := by
  unfold clawback at h
  split at h
  · cases h
  rename_i h0
  split at h
  · rename_i f a ha
    split at h
    · cases h
    rename_i h1
    refine ⟨f, a, ha, ?_, ?_⟩
    · intro ⟨h2, h3⟩
      rw [h2, h3] at h1
      exact h1 rfl
    · split at h
      · rename_i hau
        split at h
        · cases h
        · rename_i hg
          exact .inl ⟨hau, by simpa using hg, h⟩
      · rename_i hau
        split at h
        · cases h
        · rename_i hf
          refine .inr ⟨hau, Decidable.not_not.1 hf, ?_, ?_, h⟩
          · cases hc : s.active x with
            | false => rfl
            | true => exact absurd ⟨hau, .inl hc⟩ h0
          · cases hc : e.blocked (d.getD p) with
            | false => rfl
            | true => exact absurd ⟨hau, .inr hc⟩ h0
  · cases h

theorem deposited_frame (ts done : List Nat) (s : State n) :
    (deposited s done ts).accs = s.accs ∧ (deposited s done ts).bal = s.bal ∧ (deposited s done ts).now = s.now ∧
      (deposited s done ts).noGov = s.noGov ∧ (deposited s done ts).staked = s.staked := by
  induction ts generalizing s done with
  | nil => exact ⟨rfl, rfl, rfl, rfl, rfl⟩
  | cons a ts ih =>
    unfold deposited
    split
    · exact ⟨rfl, rfl, rfl, rfl, rfl⟩
    · exact ih _ _

theorem deposited_active (ts done : List Nat) (s : State n) {x : Nat} (h1 : x ∉ ts) (h2 : x ∉ done) :
    (deposited s done ts).active x = s.active x := by
  induction ts generalizing s done with
  | nil => rfl
  | cons a ts ih =>
    have ha : x ≠ a := fun hc => h1 (hc ▸ List.mem_cons_self)
    unfold deposited
    split
    · exact if_neg h2
    · rw [ih _ _ (fun hc => h1 (List.mem_cons_of_mem _ hc)) (by
        intro hc
        rcases List.mem_cons.1 hc with hc | hc
        · exact ha hc
        · exact h2 hc)]
      exact upd_ne ha

theorem mayDelegate_grant {e : Env n} {s : State n} {x y f : Nat} {a : Account n} (ha : s.accs x = .grant f a) (g : Good a) :
    mayDelegate e s x y = true ↔ y ≤ s.bal x e.bond - (a.original e.bond - vestedBy a s.now e.bond) := by
  unfold mayDelegate
  rw [ha]
  dsimp only
  rw [unvested_eq g]
  simp

theorem delegate_some {e : Env n} {s s' : State n} {x y : Nat} {j : Fin n} (h : delegate e s x j y = some s') :
    mayDelegate e s x y = true ∧ 0 < y ∧ y ≤ s.bal x j ∧ s' = { s with
      bal := upd s.bal x ((s.bal x).sub (coin j y))
      staked := upd s.staked x ((s.staked x).add (coin j y))
      accs := track s.accs x (fun c => c.add (coin j y)) } := by
  unfold delegate at h
  split at h
  · cases h
  rename_i h1
  split at h
  · cases h
  rename_i h2
  exact ⟨by simpa using h1, by omega, by omega, (Option.some.inj h).symm⟩

theorem undelegate_some {s s' : State n} {x y z : Nat} {j : Fin n} (h : undelegate s x j y z = some s') :
    y + z ≤ s.staked x j ∧ s' = { s with
      bal := upd s.bal x ((s.bal x).add (coin j y))
      staked := upd s.staked x ((s.staked x).sub (coin j (y + z)))
      accs := track s.accs x (fun c => c.sub (coin j y)) } := by
  unfold undelegate at h
  split at h
  · cases h
  rename_i h2
  exact ⟨by omega, (Option.some.inj h).symm⟩

/-- The account with other delegated coins. -/
theorem good_delegated {a : Account n} (g : Good a) (c : Coins n) : Good { a with delegatedFree := c } :=
  ⟨g.lockF, g.vestF, g.lockEnd, g.vestEnd, g.lockSum, g.vestSum⟩

/-- Accounts after a change of the delegated coins of one. -/
theorem retrack {m : Nat → Kind n} {x y f : Nat} {b : Account n} (fn : Coins n → Coins n) (h : track m x fn y = .grant f b) :
    ∃ a, m y = .grant f a ∧ Same a b ∧ (Good a → Good b) ∧ (∀ t i, vestedBy b t i = vestedBy a t i) := by
  unfold track at h
  by_cases hy : y = x
  · subst hy
    rw [upd_eq] at h
    cases ha : m y with
    | grant f' a =>
      rw [ha] at h
      cases h
      exact ⟨a, rfl, ⟨rfl, rfl, rfl, rfl, rfl⟩, fun g => good_delegated g _, fun _ _ => rfl⟩
    | absent => rw [ha] at h; cases h
    | plain => rw [ha] at h; cases h
    | other => rw [ha] at h; cases h
  · rw [upd_ne hy] at h
    exact ⟨b, h, ⟨rfl, rfl, rfl, rfl, rfl⟩, id, fun _ _ => rfl⟩

theorem retrack' {m : Nat → Kind n} {x y f : Nat} {a : Account n} (fn : Coins n → Coins n) (h : m y = .grant f a) :
    ∃ b, track m x fn y = .grant f b ∧ Same a b := by
  unfold track
  by_cases hy : y = x
  · subst hy
    rw [upd_eq, h]
    exact ⟨_, rfl, ⟨rfl, rfl, rfl, rfl, rfl⟩⟩
  · rw [upd_ne hy]
    exact ⟨a, h, ⟨rfl, rfl, rfl, rfl, rfl⟩⟩

theorem create_some {e : Env n} {s s' : State n} {p f : Nat} {g : Bool} (h : create e s p f g = some s') :
    f ≠ 0 ∧ p ≠ 0 ∧ e.blocked p = false ∧ s.accs p = .plain ∧ e.contract p = false ∧
      s' = { s with
        accs := upd s.accs p (.grant f ⟨-62135596800, 0, Coins.zero, [], [], Coins.zero⟩)
        noGov := if g then s.noGov else upd s.noGov p true } := by
  unfold create at h
  split at h
  · cases h
  rename_i h0
  split at h
  · cases h
  rename_i h1
  split at h
  · rename_i ha
    split at h
    · cases h
    rename_i h2
    exact ⟨by omega, by omega, by simpa using h1, ha, by simpa using h2, (Option.some.inj h).symm⟩
  · cases h

theorem good_new : Good (⟨-62135596800, 0, Coins.zero, [], [], Coins.zero⟩ : Account n) :=
  ⟨forward_nil, forward_nil, by show (-62135596800 : Int) + 0 ≤ 0; decide, by show (-62135596800 : Int) + 0 ≤ 0; decide, fun _ => rfl, fun _ => rfl⟩

theorem updateFunder_some {e : Env n} {s s' : State n} {p x q : Nat} (h : updateFunder e s p x q = some s') :
    q ≠ 0 ∧ p ≠ q ∧ s.active x = false ∧ e.blocked q = false ∧
      ∃ a, s.accs x = .grant p a ∧ s' = { s with accs := upd s.accs x (.grant q a) } := by
  unfold updateFunder at h
  split at h
  · cases h
  rename_i h0
  split at h
  · cases h
  rename_i h1
  split at h
  · cases h
  rename_i h2
  split at h
  · rename_i f a ha
    split at h
    · cases h
    rename_i hf
    have hf' : p = f := Decidable.not_not.1 hf
    subst hf'
    exact ⟨by omega, by omega, by simpa using h1, by simpa using h2, a, ha, (Option.some.inj h).symm⟩
  · cases h

theorem convert_some {s s' : State n} {x : Nat} (h : convert s x = some s') :
    ∃ f a, s.accs x = .grant f a ∧ (a.unvested s.now).isZero = true ∧ (a.original.sub (a.unlocked s.now)).isZero = true ∧
      s' = { s with accs := upd s.accs x .plain, noGov := upd s.noGov x false } := by
  unfold convert at h
  split at h
  · rename_i f a ha
    split at h
    · cases h
    rename_i h1
    split at h
    · cases h
    rename_i h2
    exact ⟨f, a, ha, by simpa using h1, by simpa using h2, (Option.some.inj h).symm⟩
  · cases h

theorem vestedBy_mono {a : Account n} {t t' : Int} (h : t ≤ t') (i : Fin n) : vestedBy a t i ≤ vestedBy a t' i := by
  unfold vestedBy
  split
  · rw [if_pos (by omega)]
    exact released_mono h
  · exact Nat.zero_le _

theorem coin_self (j : Fin n) (y : Nat) : coin j y j = y := if_pos rfl
theorem coin_ne {j i : Fin n} {y : Nat} (h : i ≠ j) : coin j y i = 0 := if_neg h

theorem Held.acted {e : Env n} {s s' : State n} (hs : Held s) {op : Op n} (ho : OwnCoin e op) (h : act e s op = some s') : Held s' := by
  cases op with
  | create p f g =>
    obtain ⟨_, _, _, _, _, rfl⟩ := create_some h
    intro y k b hy
    by_cases hyp : y = p
    · subst hyp
      have hy' : (upd s.accs y _) y = .grant k b := hy
      rw [upd_eq] at hy'
      cases hy'
      exact ⟨good_new, fun i => by show 0 - _ ≤ _; omega⟩
    · have hy' : (upd s.accs p _) y = .grant k b := hy
      rw [upd_ne hyp] at hy'
      exact hs y k b hy'
  | fund p a t l v => exact hs.funded h
  | clawback p x d =>
    obtain ⟨f, a, _, _, h1 | h1⟩ := clawback_some h
    · exact (hs.plain x .plain (by intro f a hc; cases hc) _).sent h1.2.2
    · exact (hs.plain x .plain (by intro f a hc; cases hc) _).sent h1.2.2.2.2
  | updateFunder p x q =>
    obtain ⟨_, _, _, _, a, ha, rfl⟩ := updateFunder_some h
    intro y k b hy
    by_cases hyp : y = x
    · subst hyp
      have hy' : (upd s.accs y _) y = .grant k b := hy
      rw [upd_eq] at hy'
      cases hy'
      exact hs y p a ha
    · have hy' : (upd s.accs x _) y = .grant k b := hy
      rw [upd_ne hyp] at hy'
      exact hs y k b hy'
  | convert x =>
    obtain ⟨f, a, _, _, _, rfl⟩ := convert_some h
    exact hs.plain x .plain (by intro f a hc; cases hc) _
  | send p q c => exact hs.sent h
  | delegate x j y =>
    have hj : j = e.bond := ho
    subst hj
    obtain ⟨h1, h2, h3, rfl⟩ := delegate_some h
    intro z k b hz
    obtain ⟨a, ha, ⟨_, _, h4, _⟩, gg, hv⟩ := retrack (fun c => c.add (coin e.bond y)) (m := s.accs) (x := x) hz
    obtain ⟨g, hb⟩ := hs z k a ha
    refine ⟨gg g, fun i => ?_⟩
    have hbi := hb i
    show b.original i - vestedBy b s.now i ≤ upd s.bal x ((s.bal x).sub (coin e.bond y)) z i
    rw [← h4, hv]
    by_cases hzx : z = x
    · subst hzx
      rw [upd_eq]
      show _ ≤ s.bal z i - coin e.bond y i
      by_cases hi : i = e.bond
      · subst hi
        rw [coin_self]
        have := (mayDelegate_grant ha g).1 h1
        omega
      · rw [coin_ne hi]
        exact hbi
    · rw [upd_ne hzx]
      exact hbi
  | undelegate x j y l =>
    obtain ⟨h1, rfl⟩ := undelegate_some h
    intro z k b hz
    obtain ⟨a, ha, ⟨_, _, h4, _⟩, gg, hv⟩ := retrack (fun c => c.sub (coin j y)) (m := s.accs) (x := x) hz
    obtain ⟨g, hb⟩ := hs z k a ha
    refine ⟨gg g, fun i => ?_⟩
    have hbi := hb i
    show b.original i - vestedBy b s.now i ≤ upd s.bal x ((s.bal x).add (coin j y)) z i
    rw [← h4, hv]
    by_cases hzx : z = x
    · subst hzx
      rw [upd_eq]
      show _ ≤ s.bal z i + coin j y i
      omega
    · rw [upd_ne hzx]
      exact hbi
  | receive x c =>
    have h' := (Option.some.inj h).symm
    subst h'
    intro z k b hz
    obtain ⟨g, hb⟩ := hs z k b hz
    refine ⟨g, fun i => ?_⟩
    have hbi := hb i
    show _ ≤ upd s.bal x ((s.bal x).add c) z i
    by_cases hzx : z = x
    · subst hzx
      rw [upd_eq]
      show _ ≤ s.bal z i + c i
      dsimp only
      omega
    · rw [upd_ne hzx]
      exact hbi
  | wait d =>
    have h' := (Option.some.inj h).symm
    subst h'
    intro z k b hz
    obtain ⟨g, hb⟩ := hs z k b hz
    refine ⟨g, fun i => ?_⟩
    have hbi := hb i
    show b.original i - vestedBy b (s.now + d) i ≤ s.bal z i
    have := vestedBy_mono (a := b) (t := s.now) (t' := s.now + d) (by omega) i
    omega
  | deposited ts en =>
    have h' := (Option.some.inj h).symm
    subst h'
    split
    · obtain ⟨e1, e2, e3, _⟩ := deposited_frame ts [] s
      intro z k b hz
      rw [e1] at hz
      rw [e2, e3]
      exact hs z k b hz
    · exact hs
  | ended ts =>
    have h' := (Option.some.inj h).symm
    subst h'
    exact hs
  | cancel ts =>
    have h' := (Option.some.inj h).symm
    subst h'
    exact hs

/-- What the taking back does when the coins are there. -/
theorem takeBack_works {s : State n} (hs : Held s) {x f : Nat} {a : Account n} (ha : s.accs x = .grant f a) (d : Nat) :
    ∃ s', takeBack s x a d = some s' ∧ s'.accs = upd s.accs x .plain ∧ s'.noGov = upd s.noGov x false ∧ s'.active = s.active ∧
      (∀ i, s'.bal x i + (a.original i - vestedBy a s.now i) = s.bal x i + (if x = d then a.original i - vestedBy a s.now i else 0)) ∧
      (∀ y i, y ≠ x → s'.bal y i = s.bal y i + (if y = d then a.original i - vestedBy a s.now i else 0)) := by
  obtain ⟨g, hb⟩ := hs x f a ha
  have hc : ∀ i, (a.computeClawback s.now).2 i = a.original i - vestedBy a s.now i := fun i => unvested_eq g s.now i
  have hk : ∀ i, (a.computeClawback s.now).2 i = 0 ∨
      (a.computeClawback s.now).2 i + (upd s.accs x .plain x).locked s.now i ≤ s.bal x i := by
    intro i
    right
    rw [upd_eq, hc]
    show _ + 0 ≤ _
    exact hb i
  have hsend : ∃ s', takeBack s x a d = some s' := by
    unfold takeBack send
    dsimp only
    rw [if_pos hk]
    exact ⟨_, rfl⟩
  obtain ⟨s', hs'⟩ := hsend
  obtain ⟨e1, _, e3, e4, _⟩ := send_accs (show send _ _ _ _ = some s' from hs')
  refine ⟨s', hs', e1, e3, e4, fun i => ?_, fun y i hy => ?_⟩
  · have := send_src (show send _ _ _ _ = some s' from hs') i
    rw [hc] at this
    exact this
  · have := send_other (show send _ _ _ _ = some s' from hs') hy i
    rw [hc] at this
    exact this

end Grant
