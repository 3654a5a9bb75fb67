import Verif.EVM.PrecompileLemmas3

/-!
# Calls of precompiled contracts: what is proved

The full property: a call of a precompiled contract, and every enclosing call that contains one, either takes effect as a whole or leaves no trace, in the accounts,
the storage of contracts and in all other modules; and no coins appear or disappear. It fails in the code for calls that fail, for contracts that commit in
the middle and for contracts that do not report the balances they change (witnesses below). It holds for transactions in which every call of a precompiled contract succeeds
and the contracts keep to the rules.
-/
namespace PC

variable {X : Type}

/-- Transactions in which calls of precompiled contracts succeed and keep to the rules: what operations return, and what is stored at the end, is as specified. -/
theorem runs_like_the_specification_partial {C : Full X} (hwf : C.WF) {ops : List (Op X)} {s : SDB X} {outs : List Out}
    (hr : SDB.run { ctx := C } ops = some (s, outs)) (hf : Fine ops outs) :
    ∃ σ, Spec.run ⟨C, [], 0⟩ ops outs = some (σ, outs) ∧ ∀ s', s.commit = some s' → s'.ctx = σ.cur := by
  have h0 : Inv ({ ctx := C } : SDB X) C [] := ⟨Core.init C, rfl, List.Pairwise.nil, fun t ht => (nomatch ht)⟩
  obtain ⟨v, T, e, i, c⟩ := Inv.run ops h0 hwf hr hf
  refine ⟨_, e, fun s' hs' => ?_⟩
  unfold SDB.commit at hs'
  split at hs'
  · cases hs'
    exact i.core.write
  · exact (nomatch hs')

/-- An enclosing call that is reverted leaves no trace, in accounts, storage or any module, if all calls of precompiled contracts in the transaction so far succeeded and kept to the rules:
what would be stored is what would have been stored before it. -/
theorem reverted_frame_leaves_no_trace_partial {C : Full X} (hwf : C.WF) {pre body : List (Op X)} {i : Nat} {s0 s0' s s' : SDB X} {outs0 outs : List Out}
    (h0 : SDB.run { ctx := C } pre = some (s0, outs0)) (hi : s0.nextRev = i) (hr : SDB.run { ctx := C } (pre ++ (.snapshot :: body ++ [.revert i])) = some (s, outs))
    (hf : Fine (pre ++ (.snapshot :: body ++ [.revert i])) outs) (hw : Within i body) (hc0 : s0.commit = some s0') (hc : s.commit = some s') : s'.ctx = s0'.ctx := by
  obtain ⟨s1, o1, o2, e1, e2, e3, e4⟩ := SDB.run_append pre hr
  rw [h0] at e3
  cases e3
  have hf0 : Fine pre outs0 := by rw [e1] at hf; exact Fine.left pre e2 hf
  have hI : Inv ({ ctx := C } : SDB X) C [] := ⟨Core.init C, rfl, List.Pairwise.nil, fun t ht => (nomatch ht)⟩
  obtain ⟨v, T, q1, q2, q3⟩ := Inv.run pre hI hwf h0 hf0
  have hs0 : s0'.ctx = v := by
    unfold SDB.commit at hc0
    split at hc0
    · cases hc0; exact q2.core.write
    · exact (nomatch hc0)
  obtain ⟨σ, w1, w2⟩ := runs_like_the_specification_partial hwf hr hf
  rw [w2 s' hc, hs0]
  obtain ⟨σ1, p1, p2, f1, f2, f3, f4⟩ := Spec.run_append pre w1
  have hp : p1 = outs0 := by
    have := f1.symm.trans e1
    exact (List.append_inj this (f2.trans e2.symm)).1
  rw [hp] at f3
  simp only [List.map_nil] at q1
  have hσ1 : σ1 = ⟨v, T.map (fun t => (t.1, t.2.2)), s0.nextRev⟩ := by
    have := f3.symm.trans q1
    simp only [Option.some.injEq, Prod.mk.injEq] at this
    exact this.1
  rw [hσ1] at f4
  cases p2 with
  | nil => simp [Spec.run] at f4
  | cons o p2 =>
    rw [List.cons_append] at f4
    simp only [Spec.run, Spec.step, Option.bind_some, Option.map_eq_some_iff] at f4
    obtain ⟨⟨σ3, os3⟩, g2, he⟩ := f4
    obtain ⟨σ4, r1, r2, k1, k2, k3, k4⟩ := Spec.run_append body g2
    have hsv := Spec.run_keeps body (i := i) k3 hw (by rw [hi]; exact Nat.lt_succ_self i)
    have hlast : σ3.cur = v := by
      cases r2 with
      | nil => simp [Spec.run] at k4
      | cons o2 r2 =>
        simp only [Spec.run, Option.bind_eq_some_iff, Option.map_eq_some_iff] at k4
        obtain ⟨⟨σ5, o5⟩, m1, ⟨σ6, os6⟩, m2, m3⟩ := k4
        have h65 : σ6 = σ5 := by
          cases r2 with
          | nil => simp only [Spec.run, Option.some.injEq, Prod.mk.injEq] at m2; exact m2.1.symm
          | cons o r2 => simp [Spec.run] at m2
        have h63 : σ6 = σ3 := (Prod.mk.inj m3).1
        simp only [Spec.step, Option.map_eq_some_iff, Prod.mk.injEq] at m1
        obtain ⟨e, he1, he2, he3⟩ := m1
        have hfnd : (σ4.saved.filter (fun e => e.1 ≤ i)).find? (fun e => e.1 == i) = some e := by
          rw [List.find?_filter]
          rw [← he1]
          congr 1
          funext x
          by_cases hx : x.1 = i
          · simp [hx]
          · simp [hx]
        rw [hsv, List.filter_append] at hfnd
        have hall : (T.map (fun t => (t.1, t.2.2))).filter (fun e => decide (e.1 ≤ i)) = T.map (fun t => (t.1, t.2.2)) := by
          apply List.filter_eq_self.mpr
          intro x hx
          obtain ⟨t, ht, rfl⟩ := List.mem_map.mp hx
          have := q2.saved_lt t ht
          rw [hi] at this
          exact decide_eq_true (Nat.le_of_lt this)
        rw [hall, hi, List.find?_append] at hfnd
        have hnone : (T.map (fun t => (t.1, t.2.2))).find? (fun e => e.1 == i) = none := by
          apply List.find?_eq_none.mpr
          intro x hx hxe
          obtain ⟨t, ht, rfl⟩ := List.mem_map.mp hx
          have := q2.saved_lt t ht
          rw [hi] at this
          have hxe' : t.1 = i := by simpa using hxe
          omega
        rw [hnone] at hfnd
        have : e = (i, v) := by
          simp at hfnd
          exact hfnd.symm
        rw [← h63, h65, ← he2, this]
    have : σ = σ3 := congrArg Prod.fst he.symm
    rw [this, hlast]

/-- Coins neither appear nor disappear in a transaction in which calls of precompiled contracts succeed and keep to the rules. -/
theorem coins_are_conserved_partial {C : Full X} (hwf : C.WF) {A : List Addr} (hA : A.Nodup) {held : X → Int} {acts : List (Act X)} {s s' : SDB X} {outs : List Out}
    (hr : SDB.run { ctx := C } (acts.flatMap Act.ops) = some (s, outs)) (hf : Fine (acts.flatMap Act.ops) outs) (hb : ∀ t ∈ acts, t.Balanced A held)
    (hc : s.commit = some s') : s'.ctx.total A held = C.total A held := by
  obtain ⟨σ, h1, h2⟩ := runs_like_the_specification_partial hwf hr hf
  rw [h2 s' hc]
  exact (Spec.Holds.run hA (n := C.total A held) acts ⟨rfl, fun e he => absurd he List.not_mem_nil⟩ h1 hb).1

/-! ## Witnesses -/

/-- Accounts 1, 2, 5 and 9 exist; 1 has 100 coins, 5 has 50. The other modules are represented by the coins they hold. -/
def store0 : Full Int where
  exist := fun a => a == 1 || a == 2 || a == 5 || a == 9
  bal := fun a => if a = 1 then 100 else if a = 5 then 50 else 0
  state := fun _ _ => 0
  rest := 0

/-- A contract that takes 30 coins from account 1 and reports it, like `delegate` called by another account than the origin (staking/tx.go 237-252). -/
def takes : Call Int := { addr := 9, handler := fun _ x => ⟨[(1, -30)], x + 30, [(1, -30)], true⟩ }

/-- The same without a report, like `createCron` (chronos/methods.go) or `delegate` called directly. -/
def takesSilently : Call Int := { addr := 9, handler := fun _ x => ⟨[(1, -30)], x + 30, [], true⟩ }

/-- The same, but there is not enough gas left when it has done its work (staking.go 176-180). -/
def takesAndFails : Call Int := { addr := 9, handler := fun _ x => ⟨[(1, -30)], x + 30, [(1, -30)], false⟩ }

/-- A call whose arguments cannot be decoded. -/
def garbled : Call Int := { addr := 9, valid := false, handler := fun _ x => ⟨[], x, [], true⟩ }

/-- A query of a contract that commits the state before it answers, like `getVote` of the governance contract (gov.go 113). -/
def asks : Call Int := { addr := 9, commits := true, handler := fun _ x => ⟨[], x, [], true⟩ }

/-- A contract that reports an amount of another coin as if it were the EVM coin (staking/tx.go 238-251). -/
def takesOther : Call Int := { addr := 9, handler := fun _ x => ⟨[], x, [(1, -30)], true⟩ }

/-- A contract that only answers. -/
def looks : Call Int := { addr := 9, handler := fun _ x => ⟨[], x, [], true⟩ }

/-- What is stored at the end, and what operations returned. -/
def final (ops : List (Op Int)) : Option (Full Int × List Out) :=
  (SDB.run { ctx := store0 } ops).bind fun (s, outs) => s.commit.map fun s => (s.ctx, outs)

theorem store0_wf : store0.WF := by
  intro a h
  have h1 : a ≠ 1 := fun hx => by subst hx; exact absurd h (by decide)
  have h5 : a ≠ 5 := fun hx => by subst hx; exact absurd h (by decide)
  simp [store0, h1, h5]

theorem takes_honest : takes.Honest := ⟨rfl, fun _ _ _ => rfl⟩

/-- A transaction with a call that stays, one that is reverted, and reads in between. -/
def story : List (Act Int) :=
  [.transfer 1 2 10, .op (.setState 5 0 7), .op (.call takes), .op .snapshot, .op (.setState 5 0 8), .transfer 5 2 1, .op (.call takes), .op (.getBalance 1),
    .op (.revert 0), .op (.getBalance 1), .op (.getState 5 0), .op (.exist 9)]

example : (SDB.run { ctx := store0 } (story.flatMap Act.ops)).map Prod.snd =
    some [.done, .done, .done, .bool true, .nat 0, .done, .done, .done, .bool true, .int 30, .done, .int 60, .nat 7, .bool true] := by decide +kernel

example : (final (story.flatMap Act.ops)).map (fun r => (r.1.bal 1, r.1.bal 2, r.1.bal 5, r.1.state 5 0, r.1.rest)) = some (60, 10, 50, 7, 30) := by decide +kernel

example : Fine (story.flatMap Act.ops) [.done, .done, .done, .bool true, .nat 0, .done, .done, .done, .bool true, .int 30, .done, .int 60, .nat 7, .bool true] :=
  ⟨takes_honest, rfl, takes_honest, rfl, trivial⟩

example : ∀ t ∈ story, t.Balanced [1, 2, 5, 9] id := by
  have h : (Act.op (.call takes)).Balanced [1, 2, 5, 9] id := fun b x => by
    show ([1, 2, 5, 9].map (SDB.net [(1, -30)])).sum + (x + 30) = x
    have : ([1, 2, 5, 9].map (SDB.net [(1, -30)])).sum = -30 := by decide +kernel
    omega
  intro t ht
  simp only [story, List.mem_cons, List.not_mem_nil, or_false] at ht
  rcases ht with rfl | rfl | rfl | rfl | rfl | rfl | rfl | rfl | rfl | rfl | rfl | rfl
  all_goals first | exact h | trivial | exact ⟨by simp, by simp⟩

example : Within 0 ([.setState 5 0 8, .addBalance 5 (-1), .addBalance 2 1, .call takes, .getBalance 1] : List (Op Int)) := by
  intro op hop j hj
  subst hj
  simp at hop

/-- The full property fails: a reverted call writes storage, if a call of a precompiled contract in it failed. The transaction takes a snapshot, sets a slot, calls a precompiled contract with
data it does not understand, and reverts. -/
theorem reverted_storage_stays : (final [.snapshot, .setState 5 0 7, .call garbled, .revert 0, .getState 5 0]).map (fun r => (r.1.state 5 0, r.2)) =
    some (7, [.nat 0, .done, .bool false, .done, .nat 0]) := by decide +kernel

/-- The full property fails: coins appear. Account 5 was touched before (it received and returned a coin); in a call that is reverted it sends 50 coins to account 2, and a call of a precompiled contract
fails. At the end both accounts have the coins. -/
theorem failed_call_mints :
    ((final ([.transfer 1 5 1, .transfer 5 1 1, .op .snapshot, .transfer 5 2 50, .op (.call garbled), .op (.revert 0)].flatMap Act.ops)).map
      fun r => (r.1.bal 5, r.1.bal 2, r.1.total [1, 2, 5, 9] id)) = some (50, 50, 200) ∧ store0.total [1, 2, 5, 9] id = 150 := by decide +kernel

/-- The full property fails: a call that fails takes effect. It ran out of gas after its work was done. -/
theorem failed_call_takes_effect : (final [.snapshot, .call takesAndFails, .revert 0]).map (fun r => (r.1.bal 1, r.1.rest, r.2)) =
    some (70, 30, [.nat 0, .bool false, .done]) := by decide +kernel

/-- And if the account that paid was touched otherwise, it keeps its coins while the other modules hold them too. -/
theorem failed_call_mints_for_modules :
    (final ([.transfer 1 5 1, .op .snapshot, .op (.call takesAndFails), .op (.revert 0)].flatMap Act.ops)).map (fun r => (r.1.bal 1, r.1.rest, r.1.total [1, 2, 5, 9] id)) =
      some (99, 30, 180) := by decide +kernel

/-- The full property fails for contracts that commit: asking one of them in a call that is reverted makes the call's transfers stay, and the account that paid gets its coins back. -/
theorem commit_in_the_middle_mints :
    (final ([.transfer 1 5 1, .transfer 5 1 1, .op .snapshot, .transfer 5 2 50, .op (.call asks), .op (.revert 0)].flatMap Act.ops)).map
      (fun r => (r.1.bal 5, r.1.bal 2, r.1.total [1, 2, 5, 9] id, r.2)) =
      some (50, 50, 200, [.done, .done, .done, .done, .nat 0, .done, .done, .bool true, .done]) := by decide +kernel

/-- The full property fails for contracts that do not report: the coins they take are given back to an account that was touched. Here the account sends one coin along. -/
theorem unreported_change_mints :
    (final ([.transfer 1 9 1, .op (.call takesSilently)].flatMap Act.ops)).map (fun r => (r.1.bal 1, r.1.bal 9, r.1.rest, r.1.total [1, 2, 5, 9] id)) =
      some (99, 1, 30, 180) := by decide +kernel

/-- Without the coin sent along the call is correct. -/
theorem unreported_change_alone : (final ([.op (.call takesSilently)].flatMap Act.ops)).map (fun r => (r.1.bal 1, r.1.rest, r.1.total [1, 2, 5, 9] id)) =
    some (70, 30, 150) := by decide +kernel

/-- The full property fails for contracts that report what they did not take: coins disappear. -/
theorem reported_other_coin_burns : (final [.call takesOther]).map (fun r => (r.1.bal 1, r.1.rest, r.1.total [1, 2, 5, 9] id)) = some (70, 0, 120) := by decide +kernel

/-- At most seven calls of precompiled contracts succeed in a transaction, and going back does not give any of them back. -/
theorem eighth_call_fails :
    (final (.snapshot :: (List.replicate 7 (.call looks) ++ [.revert 0, .call looks]))).map (fun r => r.2) =
      some (.nat 0 :: (List.replicate 7 (.bool true) ++ [.done, .bool false])) := by decide +kernel

end PC
