import Verif.Authority.ProposeSpec
/-!
# Governance proposals made from the EVM: lemmas
-/
namespace Propose

theorem move_paid {b : Addr → Nat} {src dst : Addr} {n : Nat} (h : n ≤ b src) : Paid b (move b src dst n) src dst n := by
  refine ⟨h, ?_, ?_⟩
  · intro hs a
    subst hs
    unfold move
    by_cases ha : a = src
    · subst ha; simp only [if_true]; omega
    · simp [ha]
  · intro hs
    refine ⟨?_, ?_, ?_⟩
    · unfold move; simp [hs]
    · unfold move; simp [Ne.symm hs]
    · intro a h1 h2; unfold move; simp [h1, h2]

theorem toInt64_small {x : Nat} (h : x % 18446744073709551616 < 9223372036854775808) : newCoin (toInt64 x) = .amount (x % 18446744073709551616) := by
  unfold toInt64 newCoin
  rw [if_pos h, if_neg (by omega)]
  rfl

theorem toInt64_big {x : Nat} (h : ¬ x % 18446744073709551616 < 9223372036854775808) : newCoin (toInt64 x) = .panics := by
  unfold toInt64 newCoin
  have := Nat.mod_lt x (show 0 < 18446744073709551616 by decide)
  rw [if_neg h, if_pos (by omega)]

theorem newCoin_nat (x : Nat) : newCoin (x : Int) = .amount x := by
  unfold newCoin; rw [if_neg (by omega)]; simp

theorem pow63 : 2 ^ 63 = 9223372036854775808 := by decide
theorem pow64 : 2 ^ 64 = 18446744073709551616 := by decide

theorem assetCoins (x : Nat) : (if fits64 x then newCoin (toInt64 x) else .refused) =
    if x < 9223372036854775808 then Coins.amount x else if x < 18446744073709551616 then .panics else .refused := by
  unfold fits64
  by_cases h : x < 18446744073709551616
  · have hm : x % 18446744073709551616 = x := Nat.mod_eq_of_lt h
    by_cases h2 : x < 9223372036854775808
    · rw [if_pos (by simp [h]), toInt64_small (by omega), if_pos h2, hm]
    · rw [if_pos (by simp [h]), toInt64_big (by omega), if_neg h2, if_pos h]
  · rw [if_neg (by simp [h]), if_neg (by omega), if_neg h]

theorem exactCoins (x : Nat) : (if fits64 x then newCoin (x : Int) else .refused) =
    if x < 18446744073709551616 then Coins.amount x else .refused := by
  unfold fits64
  by_cases h : x < 18446744073709551616
  · rw [if_pos (by simp [h]), if_pos h, newCoin_nat]
  · rw [if_neg (by simp [h]), if_neg h]

theorem costs_iff {a : Ask} {x n : Nat} : coins a x = .amount n ↔ Costs a x n := by
  have hb : newCoin (toInt64 x) = .amount n ↔ ∃ k, x = k * 18446744073709551616 + n ∧ n < 9223372036854775808 := by
    by_cases h : x % 18446744073709551616 < 9223372036854775808
    · rw [toInt64_small h]
      constructor
      · intro he; cases he; exact ⟨x / 18446744073709551616, by omega, h⟩
      · rintro ⟨k, h1, h2⟩; congr 1; omega
    · rw [toInt64_big h]
      constructor
      · intro he; cases he
      · rintro ⟨k, h1, h2⟩; omega
  have ha : (if fits64 x then newCoin (toInt64 x) else .refused) = .amount n ↔ x < 9223372036854775808 ∧ n = x := by
    rw [assetCoins]
    constructor
    · intro he
      split at he
      · cases he; exact ⟨by assumption, rfl⟩
      · split at he <;> cases he
    · rintro ⟨h, rfl⟩; rw [if_pos h]
  have hc : (if fits64 x then newCoin (x : Int) else .refused) = .amount n ↔ x < 18446744073709551616 ∧ n = x := by
    rw [exactCoins]
    constructor
    · intro he
      split at he
      · cases he; exact ⟨by assumption, rfl⟩
      · cases he
    · rintro ⟨h, rfl⟩; rw [if_pos h]
  unfold Costs
  rw [pow63, pow64]
  cases a <;> unfold coins <;> simp only [Ask.aboutAssets, Ask.aboutBlocks, true_and, false_and, not_true, not_false_eq_true, or_false, false_or]
  · exact ha
  · exact ha
  · exact ha
  · exact hb
  · exact hc
  · exact hc

theorem panics_iff {a : Ask} {x : Nat} : coins a x = .panics ↔
    (a.aboutAssets ∧ 2 ^ 63 ≤ x ∧ x < 2 ^ 64) ∨ (a.aboutBlocks ∧ 2 ^ 63 ≤ x % 2 ^ 64) := by
  have hb : newCoin (toInt64 x) = .panics ↔ 9223372036854775808 ≤ x % 18446744073709551616 := by
    by_cases h : x % 18446744073709551616 < 9223372036854775808
    · rw [toInt64_small h]
      exact ⟨fun he => (by cases he), fun h' => absurd h (by omega)⟩
    · rw [toInt64_big h]
      exact ⟨fun _ => by omega, fun _ => rfl⟩
  have ha : (if fits64 x then newCoin (toInt64 x) else .refused) = .panics ↔ 9223372036854775808 ≤ x ∧ x < 18446744073709551616 := by
    rw [assetCoins]
    constructor
    · intro he
      split at he
      · cases he
      · split at he
        · exact ⟨by omega, by assumption⟩
        · cases he
    · rintro ⟨h, h2⟩; rw [if_neg (by omega), if_pos h2]
  have hc : (if fits64 x then newCoin (x : Int) else .refused) ≠ .panics := by
    rw [exactCoins]; split <;> (intro h; cases h)
  rw [pow63, pow64]
  cases a <;> unfold coins <;> simp only [Ask.aboutAssets, Ask.aboutBlocks, true_and, false_and, or_false, false_or]
  · exact ha
  · exact ha
  · exact ha
  · exact hb
  · exact ⟨fun h => hc h, False.elim⟩
  · exact ⟨fun h => hc h, False.elim⟩

theorem argsOk_iff {r : Req} : argsOk r = true ↔ InOrder r := by
  unfold argsOk InOrder
  by_cases h1 : r.title = []
  · simp [h1]
  by_cases h2 : r.description = []
  · simp [h2]
  rw [if_neg h1, if_neg h2]
  simp only [ne_eq, h1, h2, not_false_eq_true, true_and]
  cases r.ask with
  | blockParams g b w =>
    dsimp only
    by_cases h3 : g < 0
    · rw [if_pos h3]; constructor
      · intro h; cases h
      · rintro ⟨h, _⟩; omega
    · rw [if_neg h3]
      by_cases h4 : b < 0
      · rw [if_pos h4]; constructor
        · intro h; cases h
        · rintro ⟨_, h⟩; omega
      · rw [if_neg h4]; exact ⟨fun _ => ⟨by omega, by omega⟩, fun _ => rfl⟩
  | _ => rfl

/-- What an accepted call did. -/
theorem propose_ok {e : Env} {s s' : State} {r : Req} {id : Nat} (h : propose e s r = .ok s' id) :
    ∃ n, argsOk r = true ∧ coins r.ask r.deposit = .amount n ∧ e.least ≤ n ∧ tried e s (contentOf e r.ask) = true ∧ n ≤ s.bal r.origin ∧ id = s.next ∧
      s' = { s with
        bal := move s.bal r.origin e.gov n
        next := s.next + 1
        pending := s.pending ++ [{ id := s.next, proposer := r.origin, deposit := n, content := contentOf e r.ask }] } := by
  unfold propose at h
  split at h
  · cases h
  rename_i h1
  split at h
  · cases h
  · cases h
  rename_i n hn
  split at h
  · cases h
  split at h
  · cases h
  rename_i h3
  split at h
  · cases h
  injection h with ha hb
  exact ⟨n, by simpa using h1, hn, by omega, by simpa using h3, by omega, hb.symm, ha.symm⟩

theorem propose_of {e : Env} {s : State} {r : Req} {n : Nat} (h1 : argsOk r = true) (h2 : coins r.ask r.deposit = .amount n) (h3 : e.least ≤ n)
    (h4 : tried e s (contentOf e r.ask) = true) (h5 : n ≤ s.bal r.origin) : ∃ s', propose e s r = .ok s' s.next := by
  unfold propose
  rw [h1, h2]
  simp only [Bool.true_eq_false, if_false]
  rw [if_neg (by omega), h4]
  simp only [Bool.true_eq_false, if_false]
  rw [if_neg (by omega)]
  exact ⟨_, rfl⟩

theorem paid_unique {b b' b'' : Addr → Nat} {src dst : Addr} {n : Nat} (h : Paid b b' src dst n) (h' : Paid b b'' src dst n) : b' = b'' := by
  funext a
  by_cases hs : src = dst
  · rw [h.2.1 hs a, h'.2.1 hs a]
  · have g := h.2.2 hs
    have g' := h'.2.2 hs
    by_cases h1 : a = src
    · rw [h1, g.1, g'.1]
    · by_cases h2 : a = dst
      · rw [h2, g.2.1, g'.2.1]
      · rw [g.2.2 a h1 h2, g'.2.2 a h1 h2]

theorem handle_iff {e : Env} {s s' : State} {m : Msg} : handle e s m = some s' ↔ Does e m.name m.act s s' := by
  unfold handle Does
  cases m.act with
  | pay d n =>
    dsimp only
    constructor
    · intro h
      split at h
      · cases h
      · cases h; exact ⟨move_paid (by omega), rfl⟩
    · rintro ⟨h1, h2⟩
      rw [if_neg (by have := h1.1; omega), h2, paid_unique h1 (move_paid h1.1)]
  | set v =>
    dsimp only
    constructor
    · intro h
      split at h
      · rename_i hg; cases h; exact ⟨hg, rfl⟩
      · cases h
    · rintro ⟨h1, h2⟩; rw [if_pos h1, h2]
  | unrouted => exact ⟨fun h => (by cases h), False.elim⟩

theorem override_act (e : Env) (m : Msg) : (override e m).act = m.act := by
  unfold override; split <;> rfl

theorem override_actor (e : Env) (m : Msg) : (override e m).name = actor e m := by
  unfold override actor
  cases m.field <;> rfl

theorem handleAll_iff {e : Env} {ms : List Msg} : ∀ {s s' : State}, handleAll e s ms = some s' ↔ DoesAll e s ms s' := by
  induction ms with
  | nil =>
    intro s s'
    constructor
    · intro h; cases h; exact .nil s
    · intro h; cases h; rfl
  | cons m ms ih =>
    intro s s'
    unfold handleAll
    constructor
    · intro h
      split at h
      · cases h
      · rename_i s1 h1
        rw [handle_iff, override_act, override_actor] at h1
        exact .cons h1 (ih.1 h)
    · intro h
      cases h with
      | cons h1 h2 =>
        rw [← override_act e, ← override_actor, ← handle_iff] at h1
        rw [h1]; exact ih.2 h2

theorem handle_rules {e : Env} {s s' : State} {m : Msg} (h : handle e s m = some s') :
    s'.assets = s.assets ∧ s'.maxGas = s.maxGas ∧ s'.maxBytes = s.maxBytes ∧ s'.next = s.next ∧ s'.pending = s.pending := by
  unfold handle at h
  split at h
  · split at h
    · cases h
    · cases h; exact ⟨rfl, rfl, rfl, rfl, rfl⟩
  · split at h
    · cases h; exact ⟨rfl, rfl, rfl, rfl, rfl⟩
    · cases h
  · cases h

theorem handle_bal {e : Env} {s s' : State} {m : Msg} (h : handle e s m = some s') {a : Addr}
    (ha : m.name ≠ a ∨ ∀ d n, m.act ≠ .pay d n) : s.bal a ≤ s'.bal a := by
  unfold handle at h
  split at h
  · rename_i d n hact
    split at h
    · cases h
    · cases h
      cases ha with
      | inr ha => exact absurd hact (ha d n)
      | inl ha =>
        show s.bal a ≤ move s.bal m.name d n a
        unfold move
        have : a ≠ m.name := fun x => ha x.symm
        rw [if_neg this]
        split <;> omega
  · split at h
    · cases h; exact Nat.le_refl _
    · cases h
  · cases h

theorem override_name {e : Env} {m : Msg} (h : m.field ≠ .other) : (override e m).name = e.gov := by
  unfold override; split
  · rfl
  · rfl
  · rename_i hf; exact absurd hf h

theorem override_other {e : Env} {m : Msg} (h : m.field = .other) : override e m = m := by
  unfold override; rw [h]

theorem handleAll_rules {e : Env} {ms : List Msg} : ∀ {s s' : State}, handleAll e s ms = some s' →
    s'.assets = s.assets ∧ s'.maxGas = s.maxGas ∧ s'.maxBytes = s.maxBytes ∧ s'.next = s.next ∧ s'.pending = s.pending := by
  induction ms with
  | nil => intro s s' h; cases h; exact ⟨rfl, rfl, rfl, rfl, rfl⟩
  | cons m rest ih =>
    intro s s' h
    unfold handleAll at h
    split at h
    · cases h
    · rename_i s1 h1
      have a := handle_rules h1
      have b := ih h
      exact ⟨b.1.trans a.1, b.2.1.trans a.2.1, b.2.2.1.trans a.2.2.1, b.2.2.2.1.trans a.2.2.2.1, b.2.2.2.2.trans a.2.2.2.2⟩

theorem handleAll_bal {e : Env} {ms : List Msg} {a : Addr}
    (ha : ∀ m ∈ ms, (override e m).name ≠ a ∨ ∀ d n, m.act ≠ .pay d n) : ∀ {s s' : State}, handleAll e s ms = some s' → s.bal a ≤ s'.bal a := by
  induction ms with
  | nil => intro s s' h; cases h; exact Nat.le_refl _
  | cons m rest ih =>
    intro s s' h
    unfold handleAll at h
    split at h
    · cases h
    · rename_i s1 h1
      have x := handle_bal (a := a) h1 (by rw [override_act]; exact ha m (List.mem_cons_self ..))
      have y := ih (fun q hq => ha q (List.mem_cons_of_mem _ hq)) h
      omega

/-- The content is executed without touching the list of proposals. -/
theorem execute_pending {e : Env} {s s' : State} {c : Content} (h : execute e s c = some s') : s'.next = s.next ∧ s'.pending = s.pending := by
  unfold execute at h
  split at h
  · split at h
    · cases h; exact ⟨rfl, rfl⟩
    · cases h
  · split at h
    · cases h; exact ⟨rfl, rfl⟩
    · cases h
  · split at h
    · exact ⟨(handle_rules h).2.2.2.1, (handle_rules h).2.2.2.2⟩
    · cases h
  · split at h
    · exact ⟨(handleAll_rules h).2.2.2.1, (handleAll_rules h).2.2.2.2⟩
    · cases h

theorem execute_bal {e : Env} {s s' : State} {c : Content} {a : Addr} (h : execute e s c = some s') (ha : a ≠ e.gov) (hn : ¬ Names c a) : s.bal a ≤ s'.bal a := by
  unfold execute at h
  split at h
  · split at h
    · cases h; exact Nat.le_refl _
    · cases h
  · split at h
    · cases h; exact Nat.le_refl _
    · cases h
  · split at h
    · exact handle_bal h (Or.inl (fun x => ha x.symm))
    · cases h
  · rename_i r ms
    split at h
    · refine handleAll_bal ?_ h
      intro m hm
      refine Or.inl ?_
      by_cases hf : m.field = .other
      · rw [override_other hf]
        exact fun hx => hn ⟨r, ms, rfl, m, hm, hf, hx⟩
      · rw [override_name hf]; exact fun x => ha x.symm
    · cases h

theorem execute_gov {e : Env} {s s' : State} {c : Content} (h : execute e s c = some s') (hn : SparesGov e c) : s.bal e.gov ≤ s'.bal e.gov := by
  unfold execute at h
  split at h
  · split at h
    · cases h; exact Nat.le_refl _
    · cases h
  · split at h
    · cases h; exact Nat.le_refl _
    · cases h
  · split at h
    · exact handle_bal h (Or.inr hn)
    · cases h
  · rename_i r ms
    split at h
    · refine handleAll_bal ?_ h
      intro m hm
      by_cases hp : ∃ d n, m.act = .pay d n
      · obtain ⟨d, n, hp⟩ := hp
        have := hn m hm d n hp
        rw [override_other this.1]; exact Or.inl this.2
      · exact Or.inr (fun d n hx => hp ⟨d, n, hx⟩)
    · cases h

theorem payOut_some {e : Env} {s s' : State} {p : Proposal} {o : Outcome} (h : payOut e s p o = some s') :
    p.deposit ≤ s.bal e.gov ∧ SameRules s s' ∧ s'.next = s.next ∧ s'.pending = s.pending.filter (fun q => q.id ≠ p.id) ∧
      (o ≠ .vetoed → Paid s.bal s'.bal e.gov p.proposer p.deposit) ∧
      (o = .vetoed → s'.bal e.gov = s.bal e.gov - p.deposit ∧ ∀ a, a ≠ e.gov → s'.bal a = s.bal a) := by
  unfold payOut at h
  split at h
  · cases h
  · rename_i hd
    have hd' : p.deposit ≤ s.bal e.gov := by omega
    dsimp only at h
    split at h
    · cases h
      exact ⟨hd', ⟨rfl, rfl, rfl, rfl⟩, rfl, rfl, fun x => absurd rfl x, fun _ => ⟨by simp, fun a ha => by simp [ha]⟩⟩
    · rename_i ho
      cases h
      exact ⟨hd', ⟨rfl, rfl, rfl, rfl⟩, rfl, rfl, fun _ => move_paid hd', fun x => absurd x (by intro hx; exact ho hx)⟩

theorem payOut_isSome {e : Env} {s : State} {p : Proposal} {o : Outcome} (h : p.deposit ≤ s.bal e.gov) : ∃ s', payOut e s p o = some s' := by
  unfold payOut
  rw [if_neg (by omega)]
  dsimp only
  split
  · exact ⟨_, rfl⟩
  · exact ⟨_, rfl⟩

theorem lookup_mem {s : State} {id : Nat} {p : Proposal} (h : lookup s id = some p) : p ∈ s.pending ∧ p.id = id := by
  unfold lookup at h
  exact ⟨List.mem_of_find?_eq_some h, by simpa using List.find?_some h⟩

theorem sum_filter_le : ∀ (l : List Proposal) (p : Proposal), p ∈ l →
    ((l.filter (fun q => q.id ≠ p.id)).map (·.deposit)).sum + p.deposit ≤ (l.map (·.deposit)).sum := by
  have le : ∀ (l : List Proposal) (i : Nat), ((l.filter (fun q => q.id ≠ i)).map (·.deposit)).sum ≤ (l.map (·.deposit)).sum := by
    intro l i
    induction l with
    | nil => simp
    | cons a t ih =>
      by_cases h : a.id = i
      · rw [List.filter_cons_of_neg (by simp [h])]
        simp only [List.map_cons, List.sum_cons]; omega
      · rw [List.filter_cons_of_pos (by simp [h])]
        simp only [List.map_cons, List.sum_cons]; omega
  intro l p hp
  induction l with
  | nil => cases hp
  | cons a t ih =>
    by_cases h : a.id = p.id
    · rw [List.filter_cons_of_neg (by simp [h])]
      simp only [List.map_cons, List.sum_cons]
      rcases List.mem_cons.1 hp with rfl | hp
      · have := le t p.id; omega
      · have := ih hp; omega
    · rw [List.filter_cons_of_pos (by simp [h])]
      simp only [List.map_cons, List.sum_cons]
      rcases List.mem_cons.1 hp with rfl | hp
      · exact absurd rfl h
      · have := ih hp; omega

/-- All contents of the list spare the governance account, and no proposer is that account. -/
def Sparing (e : Env) (s : State) : Prop := ∀ p ∈ s.pending, SparesGov e p.content ∧ p.proposer ≠ e.gov

theorem finish_some {e : Env} {s s' : State} {id : Nat} {o : Outcome} {p : Proposal} (hp : lookup s id = some p) (h : finish e s id o = some s') :
    ∃ s1, payOut e s p o = some s1 ∧ (s' = s1 ∨ (o = .passed ∧ execute e s1 p.content = some s')) := by
  unfold finish at h
  rw [hp] at h
  dsimp only at h
  split at h
  · cases h
  · rename_i s1 h1
    refine ⟨s1, h1, ?_⟩
    split at h
    · cases hx : execute e s1 p.content with
      | none => rw [hx] at h; cases h; exact Or.inl rfl
      | some s2 => rw [hx] at h; cases h; exact Or.inr ⟨rfl, rfl⟩
    · cases h; exact Or.inl rfl

theorem finish_pending {e : Env} {s s' : State} {id : Nat} {o : Outcome} {p : Proposal} (hp : lookup s id = some p) (h : finish e s id o = some s') :
    s'.next = s.next ∧ s'.pending = s.pending.filter (fun q => q.id ≠ id) := by
  obtain ⟨s1, h1, h2⟩ := finish_some hp h
  obtain ⟨_, _, hn, hq, _⟩ := payOut_some h1
  rw [(lookup_mem hp).2] at hq
  rcases h2 with rfl | ⟨_, h2⟩
  · exact ⟨hn, hq⟩
  · have := execute_pending h2
    exact ⟨this.1.trans hn, this.2.trans hq⟩

theorem lookup_none_finish {e : Env} {s s' : State} {id : Nat} {o : Outcome} (hp : lookup s id = none) (h : finish e s id o = some s') : s' = s := by
  unfold finish at h; rw [hp] at h; cases h; rfl

theorem numbered_step {e : Env} {s s' : State} {o : Op} (hs : Numbered s) (h : step e s o = some s') : Numbered s' := by
  cases o with
  | propose r =>
    unfold step at h
    dsimp only at h
    split at h
    · rename_i s1 i hr
      cases h
      obtain ⟨n, _, _, _, _, _, _, rfl⟩ := propose_ok hr
      refine ⟨?_, ?_⟩
      · show (List.map (·.id) (s.pending ++ [_])).Nodup
        rw [List.map_append, List.nodup_append]
        refine ⟨hs.1, by simp, ?_⟩
        intro a ha b hb hab
        simp only [List.map_cons, List.map_nil, List.mem_singleton] at hb
        obtain ⟨q, hq, rfl⟩ := List.mem_map.1 ha
        have := hs.2 q hq
        omega
      · intro p hp
        show p.id < s.next + 1
        rcases List.mem_append.1 hp with hp | hp
        · have := hs.2 p hp; omega
        · rw [List.mem_singleton] at hp; rw [hp]; exact Nat.lt_succ_self _
    · cases h; exact hs
  | finish id o =>
    unfold step at h
    dsimp only at h
    cases hp : lookup s id with
    | none => rw [lookup_none_finish hp h]; exact hs
    | some p =>
      obtain ⟨h1, h2⟩ := finish_pending hp h
      unfold Numbered
      rw [h1, h2]
      refine ⟨?_, fun q hq => hs.2 q (List.mem_filter.1 hq |>.1)⟩
      exact hs.1.sublist (List.filter_sublist.map _)

theorem sparing_step {e : Env} {s s' : State} {o : Op} (hs : Sparing e s) (hb : Backed e s) (ho : o.Spares e) (h : step e s o = some s') :
    Sparing e s' ∧ Backed e s' := by
  cases o with
  | propose r =>
    unfold step at h
    dsimp only at h
    split at h
    · rename_i s1 i hr
      cases h
      obtain ⟨n, _, _, _, _, hle, _, rfl⟩ := propose_ok hr
      refine ⟨?_, ?_⟩
      · intro p hp
        rcases List.mem_append.1 hp with hp | hp
        · exact hs p hp
        · rw [List.mem_singleton] at hp; rw [hp]; exact ho
      · unfold Backed at *
        show (List.map (·.deposit) (s.pending ++ [_])).sum ≤ move s.bal r.origin e.gov n e.gov
        have hm := (move_paid (dst := e.gov) hle).2.2 ho.2
        rw [hm.2.1, List.map_append, List.sum_append]
        simp only [List.map_cons, List.map_nil, List.sum_cons, List.sum_nil]
        omega
    · cases h; exact ⟨hs, hb⟩
  | finish id o =>
    unfold step at h
    dsimp only at h
    cases hp : lookup s id with
    | none => rw [lookup_none_finish hp h]; exact ⟨hs, hb⟩
    | some p =>
      obtain ⟨h1, h2⟩ := finish_pending hp h
      have hmem := (lookup_mem hp).1
      have hid := (lookup_mem hp).2
      refine ⟨?_, ?_⟩
      · intro q hq
        rw [h2] at hq
        exact hs q (List.mem_filter.1 hq |>.1)
      · unfold Backed at *
        rw [h2]
        have hsum := sum_filter_le s.pending p hmem
        rw [hid] at hsum
        obtain ⟨s1, h3, h4⟩ := finish_some hp h
        obtain ⟨hd, _, _, _, hpaid, hveto⟩ := payOut_some h3
        have hg : s1.bal e.gov = s.bal e.gov - p.deposit := by
          by_cases ho : o = .vetoed
          · exact (hveto ho).1
          · exact ((hpaid ho).2.2 (fun x => (hs p hmem).2 x.symm)).1
        have hg2 : s1.bal e.gov ≤ s'.bal e.gov := by
          rcases h4 with rfl | ⟨_, h4⟩
          · exact Nat.le_refl _
          · exact execute_gov h4 (hs p hmem).1
        omega

theorem run_cons {e : Env} {s s' : State} {o : Op} {os : List Op} (h : run e s (o :: os) = some s') : ∃ s1, step e s o = some s1 ∧ run e s1 os = some s' := by
  unfold run at h
  split at h
  · cases h
  · rename_i s1 h1; exact ⟨s1, h1, h⟩

theorem finish_total {e : Env} {s : State} (hb : Backed e s) (id : Nat) (o : Outcome) : ∃ s', finish e s id o = some s' := by
  cases hp : lookup s id with
  | none => exact ⟨s, by unfold finish; rw [hp]⟩
  | some p =>
    have hsum := sum_filter_le s.pending p (lookup_mem hp).1
    unfold Backed at hb
    obtain ⟨s1, h1⟩ := payOut_isSome (e := e) (s := s) (p := p) (o := o) (by omega)
    unfold finish
    rw [hp]; dsimp only; rw [h1]; dsimp only
    split
    · exact ⟨_, rfl⟩
    · exact ⟨_, rfl⟩

theorem run_total {e : Env} {os : List Op} : ∀ {s : State}, Sparing e s → Backed e s → (∀ o ∈ os, o.Spares e) →
    ∃ s', run e s os = some s' ∧ Sparing e s' ∧ Backed e s' := by
  induction os with
  | nil => intro s h1 h2 _; exact ⟨s, rfl, h1, h2⟩
  | cons o os ih =>
    intro s h1 h2 h3
    have : ∃ s1, step e s o = some s1 := by
      cases o with
      | propose r =>
        unfold step; dsimp only
        split
        · exact ⟨_, rfl⟩
        · exact ⟨_, rfl⟩
      | finish id o => exact finish_total h2 id o
    obtain ⟨s1, hs1⟩ := this
    have h4 := sparing_step h1 h2 (h3 o (List.mem_cons_self ..)) hs1
    obtain ⟨s', h5, h6⟩ := ih h4.1 h4.2 (fun q hq => h3 q (List.mem_cons_of_mem _ hq))
    exact ⟨s', by unfold run; rw [hs1]; exact h5, h6⟩

theorem run_numbered {e : Env} {os : List Op} : ∀ {s s' : State}, Numbered s → run e s os = some s' → Numbered s' := by
  induction os with
  | nil => intro s s' h1 h2; cases h2; exact h1
  | cons o os ih =>
    intro s s' h1 h2
    obtain ⟨s1, h3, h4⟩ := run_cons h2
    exact ih (numbered_step h1 h3) h4

theorem cut_spec : ∀ (t : Str), '.' ∉ (cut t).1 ∧
    (match (cut t).2 with
     | none => t = (cut t).1
     | some r => t = (cut t).1 ++ '.' :: r) := by
  intro t
  induction t with
  | nil => exact ⟨by simp [cut], rfl⟩
  | cons c t ih =>
    unfold cut
    by_cases h : c = '.'
    · rw [if_pos h]; exact ⟨by simp, by rw [h]; rfl⟩
    · rw [if_neg h]
      refine ⟨?_, ?_⟩
      · intro hm
        rcases List.mem_cons.1 hm with hm | hm
        · exact h hm.symm
        · exact ih.1 hm
      · have := ih.2
        cases hc : (cut t).2 with
        | none => rw [hc] at this; dsimp only at *; exact congrArg _ this
        | some r => rw [hc] at this; dsimp only at *; exact congrArg _ this

theorem inferRoute_spec (t : Str) : SecondPart t (inferRoute t) := by
  have h := cut_spec t
  unfold inferRoute SecondPart
  cases hc : (cut t).2 with
  | none =>
    rw [hc] at h; dsimp only at *
    exact ⟨by simp, Or.inr ⟨by rw [h.2]; exact h.1, rfl⟩⟩
  | some r =>
    rw [hc] at h; dsimp only at *
    have h2 := cut_spec r
    refine ⟨h2.1, Or.inl ⟨(cut t).1, h.1, ?_⟩⟩
    cases hr : (cut r).2 with
    | none => rw [hr] at h2; dsimp only at h2; exact Or.inl (by rw [← h2.2]; exact h.2)
    | some u => rw [hr] at h2; dsimp only at h2; exact Or.inr ⟨u, by rw [← h2.2]; exact h.2⟩

theorem dropWhile_split (p : Char → Bool) : ∀ (t : Str), ∃ l, t = l ++ t.dropWhile p ∧ (∀ c ∈ l, p c = true) ∧ ∀ c, (t.dropWhile p).head? = some c → p c = false := by
  intro t
  induction t with
  | nil => exact ⟨[], rfl, by simp, by simp⟩
  | cons a t ih =>
    by_cases h : p a = true
    · obtain ⟨l, h1, h2, h3⟩ := ih
      rw [List.dropWhile_cons_of_pos h]
      refine ⟨a :: l, by rw [List.cons_append, ← h1], ?_, h3⟩
      intro c hc
      rcases List.mem_cons.1 hc with rfl | hc
      · exact h
      · exact h2 c hc
    · rw [List.dropWhile_cons_of_neg h]
      refine ⟨[], rfl, by simp, ?_⟩
      intro c hc
      simp only [List.head?_cons, Option.some.injEq] at hc
      rw [← hc]; simpa using h

theorem trim_spec (p : Char → Bool) (t : Str) : IsTrim p t (trim p t) := by
  obtain ⟨l, h1, h2, h3⟩ := dropWhile_split p t
  obtain ⟨l', g1, g2, g3⟩ := dropWhile_split p (t.dropWhile p).reverse
  have hd : t.dropWhile p = trim p t ++ l'.reverse := by
    have := congrArg List.reverse g1
    rw [List.reverse_reverse, List.reverse_append] at this
    exact this
  refine ⟨l, l'.reverse, ?_, h2, ?_, ?_, ?_⟩
  · rw [List.append_assoc, ← hd]; exact h1
  · intro c hc; exact g2 c (List.mem_reverse.1 hc)
  · intro c hc
    refine h3 c ?_
    rw [hd]
    cases hr : trim p t with
    | nil => rw [hr] at hc; cases hc
    | cons a u => rw [hr] at hc; exact hc
  · intro c hc
    refine g3 c ?_
    unfold trim at hc
    rw [List.getLast?_reverse] at hc
    exact hc

end Propose

namespace Propose

theorem execute_iff {e : Env} {s s' : State} {c : Content} : execute e s c = some s' ↔ Executes e s c s' := by
  unfold execute Executes
  cases c with
  | assets l w =>
    dsimp only
    cases w
    · exact ⟨fun h => (by cases h), fun h => (by cases h.1)⟩
    · exact ⟨fun h => (by cases h; exact ⟨rfl, rfl⟩), fun h => (by rw [h.2]; rfl)⟩
  | block g b w =>
    dsimp only
    cases w
    · exact ⟨fun h => (by cases h), fun h => (by cases h.1)⟩
    · exact ⟨fun h => (by cases h; exact ⟨rfl, rfl⟩), fun h => (by rw [h.2]; rfl)⟩
  | hyperion m =>
    dsimp only
    by_cases h : m.kind = .hyperion
    · rw [if_pos h, handle_iff]; exact ⟨fun x => ⟨h, x⟩, fun x => x.2⟩
    · rw [if_neg h]; exact ⟨fun x => (by cases x), fun x => absurd x.1 h⟩
  | modules r ms =>
    dsimp only
    by_cases h : r ∈ genericRoutes e
    · rw [if_pos h, handleAll_iff]; exact ⟨fun x => ⟨h, x⟩, fun x => x.2⟩
    · rw [if_neg h]; exact ⟨fun x => (by cases x), fun x => absurd x.1 h⟩

theorem tried_iff {e : Env} {s : State} {a : Ask} : tried e s (contentOf e a) = true ↔ Works e s a := by
  have key : ∀ c, (execute e s c).isSome = true ↔ ∃ s', Executes e s c s' := by
    intro c
    rw [Option.isSome_iff_exists]
    exact exists_congr (fun s' => execute_iff)
  unfold Works
  cases a <;> simp only [contentOf, tried, Ask.aboutBlocks, false_or, true_or]
  all_goals first | exact key _ | skip

end Propose
