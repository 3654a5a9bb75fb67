import Verif.Vesting.GrantsLemmas
/-!
# Vesting accounts on the chain: properties (C108)
-/
namespace Grant
open Vesting

variable {n : Nat}

/-- The full statement: whatever happens, every vesting account keeps the coins that are not vested. -/
def UnvestedStays (n : Nat) : Prop :=
  ∀ (e : Env n) (s : State n) (ops : List (Op n)), Held s → Held (run e s ops)

/-- As long as accounts delegate the staking coin only, whatever else happens: every vesting account keeps the coins that are not vested (and its schedules stay in order). -/
theorem unvested_stays_partial (e : Env n) {s : State n} {ops : List (Op n)} (hs : Held s) (ho : ∀ op ∈ ops, OwnCoin e op) :
    Held (run e s ops) := by
  induction ops generalizing s with
  | nil => exact hs
  | cons op ops ih =>
    refine ih ?_ (fun o h => ho o (List.mem_cons_of_mem _ h))
    show Held (step e s op)
    unfold step
    cases h : act e s op with
    | none => exact hs
    | some s' => exact hs.acted (ho op List.mem_cons_self) h

/-- Two coins; coin 0 is the one of staking. Account 7 is plain, 5 is to be its funder, 1 is governance, 9 the community pool. -/
def env : Env 2 := ⟨0, 1, 9, fun x => x == 9, fun x => x == 8⟩

def start : State 2 :=
  ⟨fun x => if x = 7 ∨ x = 5 ∨ x = 6 ∨ x = 8 then .plain else if x = 9 then .other else .absent,
    fun x => if x = 5 then (fun _ => 1000) else Coins.zero, fun _ => Coins.zero, fun _ => false, fun _ => false, 0⟩

theorem start_held : Held start := by
  intro x f a h
  unfold start at h
  dsimp only at h
  split at h
  · cases h
  · split at h <;> cases h

def two (x y : Nat) : Coins 2 := fun i => if i = 0 then x else y

/-- 5 grants 7 a hundred of each coin, half after 10 and half after 20. -/
def granted : List (Op 2) := [.create 7 5 true, .fund 5 7 0 [] [⟨10, two 50 50⟩, ⟨10, two 50 50⟩]]

example : ∃ a, (run env start granted).accs 7 = .grant 5 a ∧ a.original 0 = 100 ∧ a.original 1 = 100 ∧
    (run env start granted).bal 7 1 = 100 ∧ (run env start granted).bal 5 1 = 900 :=
  ⟨_, rfl, by decide +kernel, by decide +kernel, by decide +kernel, by decide +kernel⟩

/-- An account with coins of its own: a hundred of the staking coin come in. -/
def rich : State 2 := run env start (granted ++ [.receive 7 (two 100 0)])

theorem rich_held : Held rich := by
  refine unvested_stays_partial env start_held ?_
  intro op h
  simp only [granted, List.mem_append, List.mem_cons, List.not_mem_nil, or_false] at h
  rcases h with (rfl | rfl) | rfl <;> trivial

/-- Which delegations of a vesting account are accepted: the amount, of whatever coin, may not be above the account's staking coins less its unvested staking coins. -/
theorem delegate_iff (e : Env n) {s : State n} (hs : Held s) {x f : Nat} {a : Account n} (ha : s.accs x = .grant f a) (j : Fin n) (y : Nat) :
    (∃ s', act e s (.delegate x j y) = some s') ↔
      0 < y ∧ y ≤ s.bal x j ∧ y + (a.original e.bond - vestedBy a s.now e.bond) ≤ s.bal x e.bond := by
  obtain ⟨g, hb⟩ := hs x f a ha
  have hm := mayDelegate_grant (e := e) (y := y) ha g
  have hbe := hb e.bond
  constructor
  · intro ⟨s', h⟩
    obtain ⟨h1, h2, h3, _⟩ := delegate_some h
    have := hm.1 h1
    exact ⟨h2, h3, by omega⟩
  · intro ⟨h1, h2, h3⟩
    have hm' := hm.2 (by omega)
    show ∃ s', delegate e s x j y = some s'
    unfold delegate
    rw [hm', if_neg (by decide), if_neg (by omega)]
    exact ⟨_, rfl⟩

/-- So the full statement fails: unvested coins of another kind than the staking coin can be delegated by whoever holds enough free staking coins, and then the funder gets nothing back. -/
theorem other_coins_escape : ¬ UnvestedStays 2 ∧
    (∃ a, rich.accs 7 = .grant 5 a ∧ a.original 1 - vestedBy a rich.now 1 = 100) ∧
    (∃ s', act env rich (.delegate 7 1 100) = some s' ∧ s'.bal 7 1 = 0 ∧ act env s' (.clawback 5 7 none) = none) := by
  refine ⟨fun h => ?_, ⟨_, rfl, by decide +kernel⟩, ⟨_, rfl, by decide +kernel, ?_⟩⟩
  · have := (h env rich [.delegate 7 1 100] rich_held 7 5 _ rfl).2 1
    revert this
    decide +kernel
  · have : ∀ o : Option (State 2), o.isNone = true → o = none := by
      intro o h
      cases o with
      | none => rfl
      | some _ => cases h
    exact this _ (by decide +kernel)

/-- Conversely, an account without free staking coins cannot delegate coins of another kind, even if they are entirely its own. -/
theorem free_coins_refused (e : Env n) {s : State n} (hs : Held s) {x f : Nat} {a : Account n} (ha : s.accs x = .grant f a)
    (hb : s.bal x e.bond = a.original e.bond - vestedBy a s.now e.bond) (j : Fin n) (y : Nat) :
    act e s (.delegate x j y) = none := by
  cases h : act e s (.delegate x j y) with
  | none => rfl
  | some s' =>
    have := (delegate_iff e hs ha j y).1 ⟨s', h⟩
    omega

example : (run env start (granted ++ [.receive 7 (two 0 500)])).bal 7 1 = 600 ∧
    (act env (run env start (granted ++ [.receive 7 (two 0 500)])) (.delegate 7 1 1)).isNone = true ∧
    (act env rich (.delegate 7 0 100)).isSome = true ∧ (act env rich (.delegate 7 0 101)).isSome = false ∧
    (act env rich (.delegate 7 0 0)).isSome = false := by decide +kernel

/-! ## Taking back -/

/-- Who can take back, in any state in which the unvested coins are there: governance unless the account opted out; and the funder unless a proposal about the account is running or the
destination may not receive coins. -/
theorem clawback_iff (e : Env n) {s : State n} (hs : Held s) (p x : Nat) (d : Option Nat) :
    (∃ s', act e s (.clawback p x d) = some s') ↔
      ∃ f a, s.accs x = .grant f a ∧ ¬ (a.vesting = [] ∧ a.lockup = []) ∧
        ((p = e.authority ∧ s.noGov x = false) ∨
          (p ≠ e.authority ∧ p = f ∧ s.active x = false ∧ e.blocked (d.getD p) = false)) := by
  constructor
  · intro ⟨s', h⟩
    obtain ⟨f, a, h1, h2, h3 | h3⟩ := clawback_some h
    · exact ⟨f, a, h1, h2, .inl ⟨h3.1, h3.2.1⟩⟩
    · exact ⟨f, a, h1, h2, .inr ⟨h3.1, h3.2.1, h3.2.2.1, h3.2.2.2.1⟩⟩
  · intro ⟨f, a, h1, h2, h3⟩
    have hne : (a.vesting.isEmpty && a.lockup.isEmpty) = false := by
      cases hv : a.vesting with
      | cons _ _ => rfl
      | nil =>
        cases hl : a.lockup with
        | cons _ _ => rfl
        | nil => exact absurd ⟨hv, hl⟩ h2
    show ∃ s', clawback e s p x d = some s'
    unfold clawback
    rcases h3 with ⟨hp, hg⟩ | ⟨hp, hf, hac, hbl⟩
    · obtain ⟨s', hs', _⟩ := takeBack_works hs h1 e.pool
      rw [if_neg (fun hc => hc.1 hp), h1]
      dsimp only
      rw [hne, if_neg (by decide), if_pos hp, hg, if_neg (by decide)]
      exact ⟨s', hs'⟩
    · obtain ⟨s', hs', _⟩ := takeBack_works hs h1 (d.getD p)
      rw [if_neg (by rw [hac, hbl]; intro hc; rcases hc.2 with hc | hc <;> cases hc), h1]
      dsimp only
      rw [hne, if_neg (by decide), if_neg hp, if_neg (fun hc => hc hf)]
      exact ⟨s', hs'⟩

/-- What is taken back: exactly the coins not vested, from the account to the destination (for governance always the community pool); the account becomes a plain one, and nothing else changes. -/
theorem taken_back (e : Env n) {s s' : State n} (hs : Held s) {p x f : Nat} {d : Option Nat} {a : Account n} (ha : s.accs x = .grant f a)
    (h : act e s (.clawback p x d) = some s') (hd : (if p = e.authority then e.pool else d.getD p) ≠ x) :
    s'.accs x = .plain ∧ (∀ y, y ≠ x → s'.accs y = s.accs y) ∧
      (∀ i, s'.bal x i + (a.original i - vestedBy a s.now i) = s.bal x i) ∧
      (∀ i, s'.bal (if p = e.authority then e.pool else d.getD p) i =
        s.bal (if p = e.authority then e.pool else d.getD p) i + (a.original i - vestedBy a s.now i)) ∧
      (∀ y, y ≠ x → y ≠ (if p = e.authority then e.pool else d.getD p) → s'.bal y = s.bal y) := by
  obtain ⟨f', a', h1, _, h3⟩ := clawback_some h
  rw [ha] at h1
  cases h1
  have key : takeBack s x a (if p = e.authority then e.pool else d.getD p) = some s' := by
    rcases h3 with h3 | h3
    · rw [if_pos h3.1]; exact h3.2.2
    · rw [if_neg h3.1]; exact h3.2.2.2.2
  revert hd key
  generalize (if p = e.authority then e.pool else d.getD p) = q
  intro hd key
  obtain ⟨s'', k1, k2, _, _, k5, k6⟩ := takeBack_works hs ha q
  rw [key] at k1
  have := Option.some.inj k1
  subst this
  refine ⟨by rw [k2, upd_eq], fun y hy => by rw [k2, upd_ne hy], fun i => ?_, fun i => ?_, fun y hy hq => ?_⟩
  · have := k5 i
    rw [if_neg (fun hc => hd hc.symm), Nat.add_zero] at this
    exact this
  · have := k6 q i hd
    rw [if_pos rfl] at this
    exact this
  · funext i
    have := k6 y i hy
    rw [if_neg hq, Nat.add_zero] at this
    exact this

/-- So a funder always gets the unvested part back, whatever the account did before with the staking coin, with transfers and delegations, and however much it lost by staking. -/
theorem funder_gets_it_back (e : Env n) {s : State n} {ops : List (Op n)} (hs : Held s) (ho : ∀ op ∈ ops, OwnCoin e op) {x f : Nat} {a : Account n}
    (ha : (run e s ops).accs x = .grant f a) (hp : a.vesting ≠ []) (h1 : f ≠ e.authority) (h2 : (run e s ops).active x = false)
    (h3 : e.blocked f = false) (h4 : f ≠ x) :
    ∃ s', act e (run e s ops) (.clawback f x none) = some s' ∧
      ∀ i, s'.bal f i = (run e s ops).bal f i + (a.original i - vestedBy a (run e s ops).now i) := by
  have hh := unvested_stays_partial e hs ho
  obtain ⟨s', hs'⟩ := (clawback_iff e hh f x none).2 ⟨f, a, ha, fun hc => hp hc.1, .inr ⟨h1, rfl, h2, h3⟩⟩
  have hd : (if f = e.authority then e.pool else (none : Option Nat).getD f) = f := if_neg h1
  have := (taken_back e hh ha hs' (by rw [hd]; exact h4)).2.2.2.1
  rw [hd] at this
  exact ⟨s', hs', this⟩

/-- Half has vested; 7 delegates all it may, loses ten of it and sends away what it can. The funder gets the fifty that are not vested. -/
def spent : List (Op 2) :=
  granted ++ [.receive 7 (two 100 0), .wait 10, .delegate 7 0 120, .undelegate 7 0 100 10, .send 7 6 (two 100 50), .send 7 6 (two 30 50)]

example : ∃ a, (run env start spent).accs 7 = .grant 5 a ∧ a.vesting ≠ [] ∧ (run env start spent).bal 7 0 = 80 ∧ (run env start spent).bal 7 1 = 50 ∧
    (run env start (spent ++ [.clawback 5 7 none])).bal 5 0 = 950 ∧ (run env start (spent ++ [.clawback 5 7 none])).bal 5 1 = 950 ∧
    (run env start (spent ++ [.clawback 5 7 none])).bal 7 0 = 30 :=
  ⟨_, rfl, by decide +kernel, by decide +kernel, by decide +kernel, by decide +kernel, by decide +kernel, by decide +kernel⟩

/-! ## Granting, changing and ending -/

/-- What a grant does: the funder pays the sum of its periods, the account receives it, and from then on vests what it vested before and what the grant releases. -/
theorem funded (e : Env n) {s s' : State n} (hs : Held s) {p x : Nat} {t : Int} {l v : List (Period n)} (hpx : p ≠ x)
    (h : act e s (.fund p x t l v) = some s') :
    ∃ a a', s.accs x = .grant p a ∧ s'.accs x = .grant p a' ∧ (∀ y, y ≠ x → s'.accs y = s.accs y) ∧
      (∀ i, a'.original i = a.original i + (if v.isEmpty then totalAmount l i else totalAmount v i)) ∧
      (∀ i, s'.bal x i = s.bal x i + (if v.isEmpty then totalAmount l i else totalAmount v i)) ∧
      (∀ i, s'.bal p i + (if v.isEmpty then totalAmount l i else totalAmount v i) = s.bal p i) ∧
      (∀ y, y ≠ x → y ≠ p → s'.bal y = s.bal y) ∧
      (∀ now i, a.start < now → t < now →
        vestedBy a' now i = vestedBy a now i + (if v.isEmpty then totalAmount l i else released now i t v)) := by
  obtain ⟨hp, _, _, a, a', ha, ha', hsend⟩ := fund_some h
  obtain ⟨g, _⟩ := hs x p a ha
  obtain ⟨_, o', _, v'⟩ := grant_vests g hp ha'
  obtain ⟨_, _, _, _, u5⟩ := used_good hp
  obtain ⟨e1, _⟩ := send_accs hsend
  refine ⟨a, a', ha, ?_, ?_, ?_, ?_, ?_, ?_, ?_⟩
  · rw [e1]; exact upd_eq _ _ _
  · intro y hy; rw [e1]; exact upd_ne hy
  · intro i; rw [o', u5]
  · intro i
    have := send_other hsend (fun hc => hpx hc.symm) i
    rw [if_pos rfl, u5] at this
    exact this
  · intro i
    have := send_src hsend i
    rw [if_neg hpx, u5] at this
    exact this
  · intro y hy hyp
    funext i
    have := send_other hsend hyp i
    rw [if_neg hy] at this
    exact this
  · intro now i h1 h2
    rw [v' now i h1 h2]
    congr 1
    unfold vestingOf
    split
    · show (if t + 0 ≤ now then totalAmount l i else 0) + 0 = _
      rw [if_pos (by omega)]
      rfl
    · rfl

example : ∃ a, (run env start (granted ++ [.fund 5 7 10 [⟨5, two 0 7⟩] []])).accs 7 = .grant 5 a ∧ a.original 1 = 107 ∧
    vestedBy a 11 1 = 57 ∧ vestedBy a 11 0 = 50 ∧ unlockedBy a 11 1 = 100 ∧ unlockedBy a 15 1 = 107 :=
  ⟨_, rfl, by decide +kernel, by decide +kernel, by decide +kernel, by decide +kernel, by decide +kernel⟩

/-- Only its funder can add a grant to an account. -/
theorem only_funder_grants (e : Env n) {s s' : State n} {p x : Nat} {t : Int} {l v : List (Period n)} (h : act e s (.fund p x t l v) = some s') :
    ∃ a, s.accs x = .grant p a := by
  obtain ⟨_, _, _, a, _, ha, _⟩ := fund_some h
  exact ⟨a, ha⟩

/-- An account with a grant stays as it is, with the same funder, schedules and amounts and at least its coins, through everything that is not signed by its funder, by governance or by
itself. -/
theorem only_three_change (e : Env n) {s : State n} {ops : List (Op n)} {x f : Nat} {a : Account n} (ha : s.accs x = .grant f a)
    (hn : ∀ op ∈ ops, op.signer ≠ some f ∧ op.signer ≠ some e.authority ∧ op.signer ≠ some x) :
    (∃ a', (run e s ops).accs x = .grant f a' ∧ Same a a') ∧ ∀ i, s.bal x i ≤ (run e s ops).bal x i := by
  induction ops generalizing s a with
  | nil => exact ⟨⟨a, ha, ⟨rfl, rfl, rfl, rfl, rfl⟩⟩, fun _ => Nat.le_refl _⟩
  | cons op ops ih =>
    have one : (∃ a', (step e s op).accs x = .grant f a' ∧ Same a a') ∧ ∀ i, s.bal x i ≤ (step e s op).bal x i := by
      obtain ⟨n1, n2, n3⟩ := hn op List.mem_cons_self
      unfold step
      cases h : act e s op with
      | none => exact ⟨⟨a, ha, ⟨rfl, rfl, rfl, rfl, rfl⟩⟩, fun _ => Nat.le_refl _⟩
      | some s' =>
        show (∃ a', s'.accs x = .grant f a' ∧ Same a a') ∧ ∀ i, s.bal x i ≤ s'.bal x i
        have same : s'.accs x = s.accs x → ∃ a', s'.accs x = .grant f a' ∧ Same a a' :=
          fun hc => ⟨a, by rw [hc, ha], ⟨rfl, rfl, rfl, rfl, rfl⟩⟩
        cases op with
        | create p q b =>
          have hp : x ≠ p := fun hc => n3 (congrArg some hc.symm)
          obtain ⟨_, _, _, _, _, rfl⟩ := create_some h
          exact ⟨same (upd_ne hp), fun _ => Nat.le_refl _⟩
        | fund p y t l v =>
          have hp : x ≠ p := fun hc => n3 (congrArg some hc.symm)
          obtain ⟨_, _, _, b, b', hb, _, hsend⟩ := fund_some h
          have hy : x ≠ y := by
            intro hc
            subst hc
            rw [ha] at hb
            cases hb
            exact n1 rfl
          refine ⟨same ?_, fun i => ?_⟩
          · rw [(send_accs hsend).1]
            exact upd_ne hy
          · have := send_other hsend hp i
            rw [this]
            exact Nat.le_add_right _ _
        | clawback p y d =>
          obtain ⟨f', b, hb, _, h3⟩ := clawback_some h
          have hy : x ≠ y := by
            intro hc
            subst hc
            rw [ha] at hb
            cases hb
            rcases h3 with h3 | h3
            · exact n2 (congrArg some h3.1)
            · exact n1 (congrArg some h3.2.1)
          have key : ∃ q, takeBack s y b q = some s' := by
            rcases h3 with h3 | h3
            · exact ⟨_, h3.2.2⟩
            · exact ⟨_, h3.2.2.2.2⟩
          obtain ⟨q, hq⟩ := key
          have hsend : send _ _ _ _ = some s' := hq
          refine ⟨same ?_, fun i => ?_⟩
          · rw [(send_accs hsend).1]
            exact upd_ne hy
          · have := send_other hsend hy i
            rw [this]
            exact Nat.le_add_right _ _
        | updateFunder p y q =>
          obtain ⟨_, _, _, _, b, hb, rfl⟩ := updateFunder_some h
          have hy : x ≠ y := by
            intro hc
            subst hc
            rw [ha] at hb
            cases hb
            exact n1 rfl
          exact ⟨same (upd_ne hy), fun _ => Nat.le_refl _⟩
        | convert y =>
          have hy : x ≠ y := fun hc => n3 (congrArg some hc.symm)
          obtain ⟨f', b, hb, _, _, rfl⟩ := convert_some h
          exact ⟨same (upd_ne hy), fun _ => Nat.le_refl _⟩
        | send p q c =>
          have hp : x ≠ p := fun hc => n3 (congrArg some hc.symm)
          have hsend : send s p q c = some s' := h
          refine ⟨same (by rw [(send_accs hsend).1]), fun i => ?_⟩
          have := send_other hsend hp i
          omega
        | delegate p j y =>
          have hp : x ≠ p := fun hc => n3 (congrArg some hc.symm)
          obtain ⟨_, _, _, rfl⟩ := delegate_some h
          refine ⟨retrack' _ ha, fun i => ?_⟩
          show _ ≤ upd s.bal p ((s.bal p).sub (coin j y)) x i
          rw [upd_ne hp]
          exact Nat.le_refl _
        | undelegate p j y z =>
          have hp : x ≠ p := fun hc => n3 (congrArg some hc.symm)
          obtain ⟨_, rfl⟩ := undelegate_some h
          refine ⟨retrack' _ ha, fun i => ?_⟩
          show _ ≤ upd s.bal p ((s.bal p).add (coin j y)) x i
          rw [upd_ne hp]
          exact Nat.le_refl _
        | receive y c =>
          have h' := (Option.some.inj h).symm
          subst h'
          refine ⟨same rfl, fun i => ?_⟩
          show _ ≤ upd s.bal y ((s.bal y).add c) x i
          by_cases hy : x = y
          · subst hy
            rw [upd_eq]
            exact Nat.le_add_right _ _
          · rw [upd_ne hy]
            exact Nat.le_refl _
        | wait d =>
          have h' := (Option.some.inj h).symm
          subst h'
          exact ⟨same rfl, fun _ => Nat.le_refl _⟩
        | deposited ts en =>
          have h' := (Option.some.inj h).symm
          subst h'
          cases en with
          | false => exact ⟨same rfl, fun _ => Nat.le_refl _⟩
          | true =>
            obtain ⟨e1, e2, _⟩ := deposited_frame ts [] s
            refine ⟨same ?_, fun i => ?_⟩
            · show (deposited s [] ts).accs x = _
              rw [e1]
            · show _ ≤ (deposited s [] ts).bal x i
              rw [e2]
              exact Nat.le_refl _
        | ended ts =>
          have h' := (Option.some.inj h).symm
          subst h'
          exact ⟨same rfl, fun _ => Nat.le_refl _⟩
        | cancel ts =>
          have h' := (Option.some.inj h).symm
          subst h'
          exact ⟨same rfl, fun _ => Nat.le_refl _⟩
    obtain ⟨⟨a1, h1, s1⟩, b1⟩ := one
    obtain ⟨⟨a2, h2, s2⟩, b2⟩ := ih h1 (fun o h => hn o (List.mem_cons_of_mem _ h))
    refine ⟨⟨a2, h2, ?_⟩, fun i => Nat.le_trans (b1 i) (b2 i)⟩
    obtain ⟨c1, c2, c3, c4, c5⟩ := s1
    obtain ⟨d1, d2, d3, d4, d5⟩ := s2
    exact ⟨c1.trans d1, c2.trans d2, c3.trans d3, c4.trans d4, c5.trans d5⟩

/-- Others try what they can: nothing happens to account 7. -/
def others : List (Op 2) :=
  [.fund 6 7 0 [] [⟨1, two 1 1⟩], .clawback 6 7 none, .updateFunder 6 7 6, .send 6 7 (two 0 0), .deposited [7] true, .ended [7]]

example : (∀ op ∈ others, op.signer ≠ some 5 ∧ op.signer ≠ some env.authority ∧ op.signer ≠ some 7) ∧
    ∃ a, (run env rich others).accs 7 = .grant 5 a := ⟨by decide +kernel, _, rfl⟩

/-- The funder passes on only by its own message, to an address that can receive coins, and not while a proposal about the account runs. -/
theorem funder_passes_on (e : Env n) (s : State n) (p x q : Nat) (s' : State n) :
    act e s (.updateFunder p x q) = some s' ↔
      q ≠ 0 ∧ p ≠ q ∧ s.active x = false ∧ e.blocked q = false ∧
        ∃ a, s.accs x = .grant p a ∧ s' = { s with accs := fun y => if y = x then .grant q a else s.accs y } := by
  constructor
  · intro h
    exact updateFunder_some h
  · intro ⟨h1, h2, h3, h4, a, ha, hs⟩
    show updateFunder e s p x q = some s'
    unfold updateFunder
    rw [if_neg (by omega), h3, h4, if_neg (by decide), if_neg (by decide), ha]
    dsimp only
    rw [if_neg (fun hc => hc rfl), hs]
    rfl

/-- An account becomes plain again by its own message exactly when all its coins are vested and unlocked. -/
theorem convert_iff (e : Env n) {s : State n} (hs : Held s) (x : Nat) :
    (∃ s', act e s (.convert x) = some s' ∧ s'.accs x = .plain) ↔
      ∃ f a, s.accs x = .grant f a ∧ ∀ i, vestedBy a s.now i = a.original i ∧ unlockedBy a s.now i = a.original i := by
  constructor
  · intro ⟨s', h, _⟩
    obtain ⟨f, a, ha, h1, h2, _⟩ := convert_some h
    obtain ⟨g, _⟩ := hs x f a ha
    refine ⟨f, a, ha, fun i => ?_⟩
    have h1' := of_decide_eq_true h1 i
    have h2' : a.original i - a.unlocked s.now i = 0 := of_decide_eq_true h2 i
    rw [unvested_eq g] at h1'
    rw [unlockedBy_eq g] at h2'
    have := vested_le g s.now i
    have := unlocked_le g s.now i
    rw [vestedBy_eq g] at *
    rw [unlockedBy_eq g] at *
    omega
  · intro ⟨f, a, ha, hi⟩
    obtain ⟨g, _⟩ := hs x f a ha
    have h1 : (a.unvested s.now).isZero = true := decide_eq_true (fun i => by rw [unvested_eq g]; have := hi i; omega)
    have h2 : (a.original.sub (a.unlocked s.now)).isZero = true := decide_eq_true (fun i => by
      show a.original i - a.unlocked s.now i = 0
      rw [unlockedBy_eq g]; have := hi i; omega)
    refine ⟨{ s with accs := upd s.accs x .plain, noGov := upd s.noGov x false }, ?_, upd_eq _ _ _⟩
    show convert s x = _
    unfold convert
    rw [ha]
    dsimp only
    rw [h1, h2, if_neg (by decide), if_neg (by decide)]

example : (act env (run env start (granted ++ [.wait 19])) (.convert 7)).isSome = false ∧
    (act env (run env start (granted ++ [.wait 20])) (.convert 7)).isSome = true ∧
    (act env (run env start [.create 7 5 true]) (.convert 7)).isSome = true := by decide +kernel

/-- A new vesting account: the account itself asks for it and names its funder; it must be plain, without code and able to receive coins. -/
theorem create_iff (e : Env n) (s : State n) (p f : Nat) (b : Bool) :
    (∃ s', act e s (.create p f b) = some s') ↔
      f ≠ 0 ∧ p ≠ 0 ∧ e.blocked p = false ∧ s.accs p = .plain ∧ e.contract p = false := by
  constructor
  · intro ⟨s', h⟩
    obtain ⟨h1, h2, h3, h4, h5, _⟩ := create_some h
    exact ⟨h1, h2, h3, h4, h5⟩
  · intro ⟨h1, h2, h3, h4, h5⟩
    show ∃ s', create e s p f b = some s'
    unfold create
    rw [if_neg (by omega), h3, if_neg (by decide), h4]
    dsimp only
    rw [h5, if_neg (by decide)]
    exact ⟨_, rfl⟩

/-- It starts without a grant, opts out of governance exactly if it asks for it, and nothing else changes. -/
theorem new_account (e : Env n) {s s' : State n} {p f : Nat} {b : Bool} (h : act e s (.create p f b) = some s') :
    (∃ a, s'.accs p = .grant f a ∧ a.lockup = [] ∧ a.vesting = [] ∧ ∀ i, a.original i = 0) ∧ (∀ y, y ≠ p → s'.accs y = s.accs y) ∧
      (b = false → s'.noGov p = true) ∧ (b = true → s'.noGov p = s.noGov p) ∧ (∀ y, y ≠ p → s'.noGov y = s.noGov y) ∧ s'.bal = s.bal ∧
      s'.active = s.active := by
  obtain ⟨_, _, _, _, _, rfl⟩ := create_some h
  refine ⟨⟨_, upd_eq _ _ _, rfl, rfl, fun _ => rfl⟩, fun y hy => upd_ne hy, ?_, ?_, ?_, rfl, rfl⟩
  · intro hb
    subst hb
    exact upd_eq _ _ _
  · intro hb
    subst hb
    rfl
  · intro y hy
    cases b with
    | true => rfl
    | false => exact upd_ne hy

example : (act env start (.create 7 5 true)).isSome = true ∧ (act env start (.create 8 5 true)).isSome = false ∧
    (act env start (.create 9 5 true)).isSome = false ∧ (act env start (.create 3 5 true)).isSome = false := by decide +kernel

/-! ## Governance -/

/-- While an account is marked, the funder can neither take back nor pass on its place. -/
theorem frozen (e : Env n) {s : State n} {x : Nat} (h : s.active x = true) (p : Nat) :
    (p ≠ e.authority → ∀ d, act e s (.clawback p x d) = none) ∧ (∀ q, act e s (.updateFunder p x q) = none) := by
  constructor
  · intro hp d
    cases hc : act e s (.clawback p x d) with
    | none => rfl
    | some s' =>
      obtain ⟨_, _, _, _, h1 | h1⟩ := clawback_some hc
      · exact absurd h1.1 hp
      · rw [h] at h1; cases h1.2.2.1
  · intro q
    cases hc : act e s (.updateFunder p x q) with
    | none => rfl
    | some s' =>
      obtain ⟨_, _, h1, _⟩ := updateFunder_some hc
      rw [h] at h1
      cases h1

theorem act_active {e : Env n} {s s' : State n} {op : Op n} {x : Nat} (hn : ¬ op.about x) (h : act e s op = some s') :
    s'.active x = s.active x := by
  cases op with
  | create p q b => obtain ⟨_, _, _, _, _, rfl⟩ := create_some h; rfl
  | fund p y t l v =>
    obtain ⟨_, _, _, b, b', hb, _, hsend⟩ := fund_some h
    rw [(send_accs hsend).2.2.2.1]
  | clawback p y d =>
    obtain ⟨f', b, hb, _, h3⟩ := clawback_some h
    have key : ∃ q, takeBack s y b q = some s' := by
      rcases h3 with h3 | h3
      · exact ⟨_, h3.2.2⟩
      · exact ⟨_, h3.2.2.2.2⟩
    obtain ⟨q, hq⟩ := key
    have hsend : send _ _ _ _ = some s' := hq
    rw [(send_accs hsend).2.2.2.1]
  | updateFunder p y q => obtain ⟨_, _, _, _, b, hb, rfl⟩ := updateFunder_some h; rfl
  | convert y => obtain ⟨f', b, hb, _, _, rfl⟩ := convert_some h; rfl
  | send p q c =>
    have hsend : send s p q c = some s' := h
    rw [(send_accs hsend).2.2.2.1]
  | delegate p j y => obtain ⟨_, _, _, rfl⟩ := delegate_some h; rfl
  | undelegate p j y z => obtain ⟨_, rfl⟩ := undelegate_some h; rfl
  | receive y c => have h' := (Option.some.inj h).symm; subst h'; rfl
  | wait d => have h' := (Option.some.inj h).symm; subst h'; rfl
  | deposited ts en =>
    have h' := (Option.some.inj h).symm
    subst h'
    cases en with
    | false => rfl
    | true => exact deposited_active ts [] s hn (by intro hc; cases hc)
  | ended ts =>
    have h' := (Option.some.inj h).symm
    subst h'
    exact if_neg hn
  | cancel ts => have h' := (Option.some.inj h).symm; subst h'; rfl

/-- Only the deposit or the end of a proposal about the account changes whether it is frozen. So a proposal that its proposer cancels leaves the account frozen: no later message of the funder
takes anything back, until another proposal about the same account. -/
theorem cancelled_stays_frozen (e : Env n) {s : State n} {ops : List (Op n)} {x : Nat} (hn : ∀ op ∈ ops, ¬ op.about x) :
    (run e s ops).active x = s.active x := by
  induction ops generalizing s with
  | nil => rfl
  | cons op ops ih =>
    have one : (step e s op).active x = s.active x := by
      unfold step
      cases h : act e s op with
      | none => rfl
      | some s' => exact act_active (hn op List.mem_cons_self) h
    exact (ih (fun o h => hn o (List.mem_cons_of_mem _ h))).trans one

example : (run env rich [.deposited [7] true, .cancel [7], .wait 1000000, .clawback 5 7 none]).active 7 = true ∧
    (run env rich [.deposited [7] true, .cancel [7], .wait 1, .clawback 5 7 none]).bal 5 1 = 900 ∧
    (run env rich [.wait 1, .clawback 5 7 none]).bal 5 1 = 1000 := by decide +kernel

/-- A proposal freezes the accounts it is about, provided that none of them opted out. -/
theorem deposit_freezes (e : Env n) {s : State n} {ts : List Nat} (ho : ∀ y ∈ ts, s.noGov y = false) {x : Nat} (hx : x ∈ ts) :
    (step e s (.deposited ts true)).active x = true := by
  have gen : ∀ (ts : List Nat) (s : State n) (done : List Nat), (∀ y ∈ ts, s.noGov y = false) → (x ∈ ts ∨ s.active x = true) →
      (deposited s done ts).active x = true := by
    intro ts
    induction ts with
    | nil =>
      intro s done _ h
      rcases h with h | h
      · cases h
      · exact h
    | cons a ts ih =>
      intro s done h1 h2
      unfold deposited
      rw [h1 a List.mem_cons_self, if_neg (by decide)]
      refine ih _ _ (fun y hy => h1 y (List.mem_cons_of_mem _ hy)) ?_
      by_cases hxa : x = a
      · right
        subst hxa
        exact upd_eq _ _ _
      · rcases h2 with h2 | h2
        · rcases List.mem_cons.1 h2 with h2 | h2
          · exact absurd h2 hxa
          · exact .inl h2
        · right
          show upd s.active a true x = true
          rw [upd_ne hxa]
          exact h2
  exact gen ts s [] ho (.inl hx)

/-- A deposit below the least one freezes nothing. -/
theorem small_deposit (e : Env n) (s : State n) (ts : List Nat) : step e s (.deposited ts false) = s := rfl

/-- The full statement about two proposals on the same account: the end of one leaves the account frozen, as the other is still being voted on. -/
def SecondVoteHolds (n : Nat) : Prop :=
  ∀ (e : Env n) (s : State n) (x : Nat), s.noGov x = false →
    (run e s [.deposited [x] true, .deposited [x] true, .ended [x]]).active x = true

/-- It never does: when one of two votes ends, the funder can act although the other is running. -/
theorem first_end_unfreezes (e : Env n) (s : State n) (x : Nat) :
    (run e s [.deposited [x] true, .deposited [x] true, .ended [x]]).active x = false := by
  show (if x ∈ [x] then false else _) = false
  rw [if_pos List.mem_cons_self]

theorem second_vote_does_not_hold : ¬ SecondVoteHolds 2 := by
  intro h
  have h1 := h env start 7 rfl
  rw [first_end_unfreezes] at h1
  cases h1

/-- Nor does an account stay frozen when a later proposal lists it before an account that has opted out: the later one is rejected, and with it the mark of the earlier one goes. -/
theorem rejected_proposal_unfreezes (e : Env n) (s : State n) {x y : Nat} (hx : s.noGov x = false) (hy : s.noGov y = true) :
    (step e s (.deposited [x] true)).active x = true ∧ (run e s [.deposited [x] true, .deposited [x, y] true]).active x = false := by
  refine ⟨deposit_freezes e (by intro z hz; rw [List.mem_singleton.1 hz]; exact hx) List.mem_cons_self, ?_⟩
  show (step e (step e s (.deposited [x] true)) (.deposited [x, y] true)).active x = false
  have h1 : (step e s (.deposited [x] true)).noGov = s.noGov := (deposited_frame [x] [] s).2.2.2.1
  generalize step e s (.deposited [x] true) = s1 at h1
  show (deposited s1 [] [x, y]).active x = false
  unfold deposited
  rw [h1, hx, if_neg (by decide)]
  unfold deposited
  dsimp only
  rw [hy, if_pos rfl]
  exact if_pos List.mem_cons_self

example : (run env start [.create 6 5 false]).noGov 6 = true ∧ (run env start [.create 6 5 false]).noGov 7 = false := by decide +kernel

/-- What the choice against governance is worth: it is made by the account itself when it becomes a vesting account, and holds as long as it is one. -/
theorem opted_out_stays (e : Env n) {s : State n} {ops : List (Op n)} {x : Nat} (hg : s.noGov x = true) {f : Nat} {a : Account n} (ha : s.accs x = .grant f a)
    (hl : ∀ k, k ≤ ops.length → ∃ f a, (run e s (ops.take k)).accs x = .grant f a) :
    (run e s ops).noGov x = true ∧ ∀ d, act e (run e s ops) (.clawback e.authority x d) = none := by
  have main : (run e s ops).noGov x = true := by
    induction ops generalizing s f a with
    | nil => exact hg
    | cons op ops ih =>
      obtain ⟨f1, a1, h1⟩ := hl 1 (by simp)
      have h1' : (step e s op).accs x = .grant f1 a1 := by
        rw [List.take_succ_cons, List.take_zero] at h1
        exact h1
      refine ih ?_ h1' (fun k hk => ?_)
      · clear hl
        revert h1'
        unfold step
        cases h : act e s op with
        | none => intro _; exact hg
        | some s' =>
          intro h1'
          have h1' : s'.accs x = .grant f1 a1 := h1'
          show s'.noGov x = true
          cases op with
          | create p q b =>
            obtain ⟨_, _, _, hp, _, rfl⟩ := create_some h
            show (if b then s.noGov else upd s.noGov p true) x = true
            cases b with
            | true => exact hg
            | false =>
              show upd s.noGov p true x = true
              by_cases hc : x = p
              · subst hc; exact upd_eq _ _ _
              · rw [upd_ne hc]; exact hg
          | fund p y t l v =>
            obtain ⟨_, _, _, b, b', hb, _, hsend⟩ := fund_some h
            rw [(send_accs hsend).2.2.1]
            exact hg
          | clawback p y d =>
            obtain ⟨f', b, hb, _, h3⟩ := clawback_some h
            have key : ∃ q, takeBack s y b q = some s' := by
              rcases h3 with h3 | h3
              · exact ⟨_, h3.2.2⟩
              · exact ⟨_, h3.2.2.2.2⟩
            obtain ⟨q, hq⟩ := key
            have hsend : send _ _ _ _ = some s' := hq
            rw [(send_accs hsend).1] at h1'
            have h1' : upd s.accs y .plain x = .grant f1 a1 := h1'
            rw [(send_accs hsend).2.2.1]
            show upd s.noGov y false x = true
            by_cases hc : x = y
            · subst hc; rw [upd_eq] at h1'; cases h1'
            · rw [upd_ne hc]; exact hg
          | updateFunder p y q => obtain ⟨_, _, _, _, b, hb, rfl⟩ := updateFunder_some h; exact hg
          | convert y =>
            obtain ⟨f', b, hb, _, _, rfl⟩ := convert_some h
            have h1' : upd s.accs y .plain x = .grant f1 a1 := h1'
            show upd s.noGov y false x = true
            by_cases hc : x = y
            · subst hc; rw [upd_eq] at h1'; cases h1'
            · rw [upd_ne hc]; exact hg
          | send p q c =>
            have hsend : send s p q c = some s' := h
            rw [(send_accs hsend).2.2.1]
            exact hg
          | delegate p j y => obtain ⟨_, _, _, rfl⟩ := delegate_some h; exact hg
          | undelegate p j y z => obtain ⟨_, rfl⟩ := undelegate_some h; exact hg
          | receive y c => have h' := (Option.some.inj h).symm; subst h'; exact hg
          | wait d => have h' := (Option.some.inj h).symm; subst h'; exact hg
          | deposited ts en =>
            have h' := (Option.some.inj h).symm
            subst h'
            cases en with
            | false => exact hg
            | true =>
              show (deposited s [] ts).noGov x = true
              rw [(deposited_frame ts [] s).2.2.2.1]
              exact hg
          | ended ts => have h' := (Option.some.inj h).symm; subst h'; exact hg
          | cancel ts => have h' := (Option.some.inj h).symm; subst h'; exact hg
      · have := hl (k + 1) (by simp only [List.length_cons]; omega)
        rw [List.take_succ_cons] at this
        exact this
  refine ⟨main, fun d => ?_⟩
  cases hc : act e (run e s ops) (.clawback e.authority x d) with
  | none => rfl
  | some s' =>
    obtain ⟨_, _, _, _, h1 | h1⟩ := clawback_some hc
    · rw [main] at h1; cases h1.2.1
    · exact absurd rfl h1.1

example : (act env rich (.clawback 1 7 (some 6))).isSome = true ∧ (run env rich [.clawback 1 7 (some 6)]).bal 9 1 = 100 ∧
    (run env start ([.create 7 5 false, .fund 5 7 0 [] [⟨10, two 50 50⟩], .clawback 1 7 none])).bal 9 1 = 0 := by decide +kernel

/-- Which grants are accepted, from a funder that is not itself a vesting account: periods of at least one unit of time, not all empty, with the same sums if both schedules are given; the
account is a vesting account of this funder that may receive coins; and the funder has the coins. -/
theorem fund_iff (e : Env n) {s : State n} (hs : Held s) {p x : Nat} (hp : ∀ f a, s.accs p ≠ .grant f a) (t : Int) (l v : List (Period n)) :
    (∃ s', act e s (.fund p x t l v) = some s') ↔
      x ≠ 0 ∧ e.blocked x = false ∧ (∃ a, s.accs x = .grant p a) ∧ (∀ q ∈ l, 1 ≤ q.len) ∧ (∀ q ∈ v, 1 ≤ q.len) ∧
        ((∃ i, totalAmount l i ≠ 0) ∨ ∃ i, totalAmount v i ≠ 0) ∧ (l ≠ [] → v ≠ [] → ∀ i, totalAmount l i = totalAmount v i) ∧
        ∀ i, (if v.isEmpty then totalAmount l i else totalAmount v i) ≤ s.bal p i := by
  have free : ∀ m : Nat → Kind n, (∀ f a, m p ≠ .grant f a) → ∀ i, (m p).locked s.now i = 0 := by
    intro m hm i
    cases hk : m p with
    | grant f a => exact absurd hk (hm f a)
    | absent => rfl
    | plain => rfl
    | other => rfl
  constructor
  · intro ⟨s', h⟩
    obtain ⟨ok, hx, hbl, a, a', ha, _, hsend⟩ := fund_some h
    obtain ⟨h1, h2, h3, h4⟩ := periods_used ok
    obtain ⟨_, _, _, _, u5⟩ := used_good ok
    refine ⟨hx, hbl, ⟨a, ha⟩, h1, h2, h4, h3, fun i => ?_⟩
    rw [← u5]
    exact send_le hsend i
  · intro ⟨hx, hbl, ⟨a, ha⟩, h1, h2, h4, h3, hb⟩
    have hpx : p ≠ x := by
      intro hc
      subst hc
      exact hp _ _ ha
    have ok : periodsOk l v = true := by
      unfold periodsOk
      rw [if_neg, if_neg, if_neg, if_neg]
      · intro hc
        simp only [Bool.and_eq_true, Bool.not_eq_true'] at hc
        have e1 : l ≠ [] := by intro h; rw [h] at hc; exact absurd hc.1.1 (by intro h; cases h)
        have e2 : v ≠ [] := by intro h; rw [h] at hc; exact absurd hc.1.2 (by intro h; cases h)
        rw [(eq_spec _ _).2 (h3 e1 e2)] at hc
        exact absurd hc.2 (by decide)
      · intro hc
        rw [Bool.and_eq_true] at hc
        rcases h4 with h4 | h4
        · rw [not_zero h4] at hc; exact absurd hc.1 (by decide)
        · rw [not_zero h4] at hc; exact absurd hc.2 (by decide)
      · intro hc
        obtain ⟨q, hq, hl⟩ := List.any_eq_true.1 hc
        have := h2 q hq
        have := of_decide_eq_true hl
        omega
      · intro hc
        obtain ⟨q, hq, hl⟩ := List.any_eq_true.1 hc
        have := h1 q hq
        have := of_decide_eq_true hl
        omega
    obtain ⟨g, _⟩ := hs x p a ha
    obtain ⟨u1, u2, u3, _, u5⟩ := used_good ok
    obtain ⟨a', ha', _⟩ := grant_adds g (gs := t) u1 u2 u3 (fun i => rfl)
    show ∃ s', fund e s p x t l v = some s'
    unfold fund
    rw [if_neg hx, ok, if_neg (by decide), hbl, if_neg (by decide), ha]
    dsimp only
    simp only [lockup_used ok, vesting_used ok]
    rw [if_neg (fun hc => hc rfl), ha']
    dsimp only
    unfold send
    dsimp only
    rw [if_pos]
    · exact ⟨_, rfl⟩
    · intro i
      right
      rw [free _ (by intro f b hc; rw [upd_ne hpx] at hc; exact hp f b hc), Nat.add_zero, u5]
      exact hb i

example : (act env (run env start [.create 7 5 true]) (.fund 5 7 0 [] [⟨0, two 1 1⟩])).isSome = false ∧
    (act env (run env start [.create 7 5 true]) (.fund 5 7 0 [⟨1, two 1 1⟩] [⟨1, two 1 2⟩])).isSome = false ∧
    (act env (run env start [.create 7 5 true]) (.fund 5 7 0 [⟨1, two 1 2⟩] [⟨1, two 1 2⟩])).isSome = true ∧
    (act env (run env start [.create 7 5 true]) (.fund 6 7 0 [⟨1, two 1 2⟩] [⟨1, two 1 2⟩])).isSome = false := by decide +kernel

/-- The choice against governance is kept for vesting accounts only: an account that becomes plain again does not take it along. -/
theorem choice_ends_with_vesting (e : Env n) {s : State n} {ops : List (Op n)} (hs : ∀ x, s.noGov x = true → ∃ f a, s.accs x = .grant f a) (x : Nat)
    (h : (run e s ops).noGov x = true) : ∃ f a, (run e s ops).accs x = .grant f a := by
  induction ops generalizing s with
  | nil => exact hs x h
  | cons op ops ih =>
    refine ih (s := step e s op) ?_ h
    intro y
    unfold step
    cases h : act e s op with
    | none => exact hs y
    | some s' =>
      show s'.noGov y = true → ∃ f a, s'.accs y = .grant f a
      intro hg
      have taken : ∀ z, s'.accs = upd s.accs z .plain → s'.noGov = upd s.noGov z false → ∃ f a, s'.accs y = .grant f a := by
        intro z h1 h2
        rw [h2] at hg
        by_cases hc : y = z
        · subst hc; rw [upd_eq] at hg; cases hg
        · rw [upd_ne hc] at hg
          rw [h1, upd_ne hc]
          exact hs y hg
      cases op with
      | create p q b =>
        obtain ⟨_, _, _, hp, _, rfl⟩ := create_some h
        by_cases hc : y = p
        · subst hc; exact ⟨_, _, upd_eq _ _ _⟩
        · have h2 : (if b then s.noGov else upd s.noGov p true) y = true := hg
          have h3 : s.noGov y = true := by
            cases b with
            | true => exact h2
            | false =>
              have h2 : upd s.noGov p true y = true := h2
              rwa [upd_ne hc] at h2
          obtain ⟨f, a, ha⟩ := hs y h3
          exact ⟨f, a, (upd_ne hc).trans ha⟩
      | fund p z t l v =>
        obtain ⟨_, _, _, b, b', hb, _, hsend⟩ := fund_some h
        rw [(send_accs hsend).2.2.1] at hg
        rw [(send_accs hsend).1]
        show ∃ f a, upd s.accs z (.grant p b') y = .grant f a
        by_cases hc : y = z
        · subst hc; exact ⟨_, _, upd_eq _ _ _⟩
        · rw [upd_ne hc]; exact hs y hg
      | clawback p z d =>
        obtain ⟨f', b, hb, _, h3⟩ := clawback_some h
        have key : ∃ q, takeBack s z b q = some s' := by
          rcases h3 with h3 | h3
          · exact ⟨_, h3.2.2⟩
          · exact ⟨_, h3.2.2.2.2⟩
        obtain ⟨q, hq⟩ := key
        have hsend : send _ _ _ _ = some s' := hq
        exact taken z (send_accs hsend).1 (send_accs hsend).2.2.1
      | updateFunder p z q =>
        obtain ⟨_, _, _, _, b, hb, rfl⟩ := updateFunder_some h
        by_cases hc : y = z
        · subst hc; exact ⟨_, _, upd_eq _ _ _⟩
        · obtain ⟨f, a, ha⟩ := hs y hg
          exact ⟨f, a, (upd_ne hc).trans ha⟩
      | convert z =>
        obtain ⟨f', b, hb, _, _, hs'⟩ := convert_some h
        exact taken z (by rw [hs']) (by rw [hs'])
      | send p q c =>
        have hsend : send s p q c = some s' := h
        rw [(send_accs hsend).2.2.1] at hg
        rw [(send_accs hsend).1]
        exact hs y hg
      | delegate p j z =>
        obtain ⟨_, _, _, rfl⟩ := delegate_some h
        obtain ⟨f, a, ha⟩ := hs y hg
        obtain ⟨b, hb, _⟩ := retrack' (x := p) (fun c => c.add (coin j z)) ha
        exact ⟨f, b, hb⟩
      | undelegate p j z w =>
        obtain ⟨_, rfl⟩ := undelegate_some h
        obtain ⟨f, a, ha⟩ := hs y hg
        obtain ⟨b, hb, _⟩ := retrack' (x := p) (fun c => c.sub (coin j z)) ha
        exact ⟨f, b, hb⟩
      | receive z c => have h' := (Option.some.inj h).symm; subst h'; exact hs y hg
      | wait d => have h' := (Option.some.inj h).symm; subst h'; exact hs y hg
      | deposited ts en =>
        have h' := (Option.some.inj h).symm
        subst h'
        cases en with
        | false => exact hs y hg
        | true =>
          have hg : (deposited s [] ts).noGov y = true := hg
          show ∃ f a, (deposited s [] ts).accs y = .grant f a
          rw [(deposited_frame ts [] s).2.2.2.1] at hg
          rw [(deposited_frame ts [] s).1]
          exact hs y hg
      | ended ts => have h' := (Option.some.inj h).symm; subst h'; exact hs y hg
      | cancel ts => have h' := (Option.some.inj h).symm; subst h'; exact hs y hg

example : (∀ x, start.noGov x = true → ∃ f a, start.accs x = .grant f a) ∧ (run env start [.create 7 5 false]).noGov 7 = true ∧
    (run env start [.create 7 5 false, .convert 7]).noGov 7 = false := ⟨(by intro x h; cases h), by decide +kernel, by decide +kernel⟩

end Grant
