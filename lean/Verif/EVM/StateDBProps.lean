import Verif.EVM.StateDBLemmas6
/-!
# EVM state: properties (C17 revert, C18 commit, C19 access list, C20 refund counter and snapshot identifiers)

`SDB` is the journaled state of the code; `Spec`, `survivors`, `openIds` (StateDBSpec.lean) are the yardsticks.  A transaction
starts from `{ logIndex := li }` over the store `K`.
-/
namespace EVM

variable {H : Bytes → Hash} {K : Store}

/-! ### Concrete data for the examples -/

/-- A toy hash without collisions. -/
def toyH (c : Bytes) : Hash := c.foldl (fun h b => h * 256 + b.toNat) 1

/-- A store with a contract (1) that has code `[7]` and a slot, a plain account (2), and nothing else. -/
def toyK : Store where
  seq := fun a => if a = 1 then some 5 else if a = 2 then some 0 else none
  bal := fun a => if a = 1 then 10 else if a = 2 then 100 else 0
  codeHash := fun a => if a = 1 then some (toyH [7]) else none
  code := fun h => if h = toyH [7] then some [7] else none
  state := fun a k => if a = 1 ∧ k = 3 then 9 else 0

/-- A transaction with nested snapshots. -/
def toyOps : List Op :=
  [.addBalance 3 4, .snapshot, .setState 1 3 8, .setCode 3 [1, 2], .addSlot 1 3, .snapshot, .suicide 1, .createAccount 2,
    .addRefund 5, .revert 1, .addLog 77, .addRefund 9, .addAddress 4]

/-! ### C17 -/

/-- The journaled state behaves like the specification: for every sequence of operations, including nested snapshots and
reverts, every answer is the same, and one panics exactly if the other does. -/
theorem runs_like_the_specification (H : Bytes → Hash) (K : Store) (li : Nat) (ops : List Op) :
    (SDB.run H K { logIndex := li } ops).map (·.2) = ((Spec.init H K).run H K li ops).map (·.2) := by
  rcases R.run (S := fun _ => True) (W := False) (fun h => h.elim) ops (R.init (H := H) (K := K) li) (fun h => h.elim) with
    ⟨h1, h2⟩ | ⟨s', σ', os, h1, h2, -, -⟩
  · rw [h2]
    have h1' : (Spec.init H K).run H K li ops = none := h1
    rw [h1']; rfl
  · rw [h1]
    have h2' : (Spec.init H K).run H K li ops = some (σ', os) := h2
    rw [h2']; rfl

example : (SDB.run toyH toyK {} (toyOps ++ [.getState 1 3, .getCode 3, .hasSuicided 1, .getRefund, .revert 0, .getState 1 3,
      .getCode 3, .getBalance 3, .getRefund, .addressInAccessList 1])).map (·.2.drop toyOps.length) =
    some [.nat 8, .bytes [1, 2], .bool false, .nat 9, .done, .nat 9, .bytes [], .int 4, .nat 0, .bool false] := by decide +kernel

/-- Reverting to a snapshot restores everything: whatever happened in between (`ops₂`, with any nesting), every later sequence of
operations and queries gives the answers it would have given right before the snapshot.  (Only the numbers of snapshots taken
later differ, so `ops₃` takes none; it may revert to older snapshots.) -/
theorem revert_restores (H : Bytes → Hash) (K : Store) (li : Nat) (ops₁ ops₂ ops₃ : List Op) (id : Nat) (s₁ s₂ s₃ s₄ : SDB)
    (os₁ os₂ : List Out) (h₁ : SDB.run H K { logIndex := li } ops₁ = some (s₁, os₁))
    (h₂ : s₁.step H K .snapshot = some (s₂, .nat id))
    (h₃ : s₂.run H K ops₂ = some (s₃, os₂))
    (h₄ : s₃.step H K (.revert id) = some (s₄, .done))
    (hn : ∀ op ∈ ops₃, op ≠ .snapshot) :
    (s₄.run H K ops₃).map (·.2) = (s₁.run H K ops₃).map (·.2) := by
  have hW : False → WF H K (fun _ => True) := fun h => h.elim
  rcases R.run (S := fun _ => True) (W := False) hW ops₁ (R.init (H := H) (K := K) li) (fun h => h.elim) with
    ⟨-, h⟩ | ⟨s', σ₁, os, a1, a2, r1, l1⟩
  · rw [h₁] at h; cases h
  rw [h₁] at a1; cases a1
  rcases r1.step hW .snapshot (fun h => h.elim) with ⟨-, h⟩ | ⟨s', σ₂, o, b1, b2, r2, l2⟩
  · rw [h₂] at h; cases h
  rw [h₂] at b1; cases b1
  rcases R.run hW ops₂ r2 (fun h => h.elim) with ⟨-, h⟩ | ⟨s', σ₃, os, c1, c2, r3, l3⟩
  · rw [h₃] at h; cases h
  rw [h₃] at c1; cases c1
  rcases r3.step hW (.revert id) (fun h => h.elim) with ⟨-, h⟩ | ⟨s', σ₄, o, d1, d2, r4, l4⟩
  · rw [h₄] at h; cases h
  rw [h₄] at d1; cases d1
  have hk : Kept σ₁ id σ₂ := by
    simp only [Spec.step, Option.some.injEq, Prod.mk.injEq, Out.nat.injEq] at b2
    obtain ⟨rfl, hid⟩ := b2
    subst hid
    have hlt : ∀ p ∈ σ₁.saved, p.1 < σ₁.next := by
      intro p hp
      have : p.1 ∈ s₁.revs.map (·.1) := by rw [← r1.saved.ids]; exact List.mem_map_of_mem hp
      obtain ⟨q, q1, q2⟩ := List.mem_map.1 this
      have := r1.lt q q1
      rw [r1.next] at this; omega
    refine ⟨by simp, .inr ⟨?_, ?_⟩⟩
    · simp only [List.filter_append]
      rw [List.filter_cons_of_neg (by simp)]
      simp only [List.filter_nil, List.append_nil]
      exact List.filter_eq_self.2 (fun p hp => by simpa using hlt p hp)
    · intro p hp he
      simp only [List.mem_append, List.mem_singleton] at hp
      rcases hp with hp | rfl
      · have := hlt p hp; omega
      · rfl
  obtain ⟨e1, e2⟩ := (hk.run ops₂ c2).revert d2
  have e : ∀ {s : SDB} {σ : Spec}, R H K (fun _ => True) False s σ → (s.run H K ops₃).map (·.2) = (σ.run H K s.logIndex ops₃).map (·.2) := by
    intro s σ r
    rcases R.run hW ops₃ r (fun h => h.elim) with ⟨k1, k2⟩ | ⟨s', σ', os, k1, k2, -, -⟩
    · rw [k1, k2]; rfl
    · rw [k1, k2]; rfl
  rw [e r4, e r1, l4, l3, l2]
  exact Spec.run_next ops₃ hn e1 e2

example : (SDB.run toyH toyK {} [.addBalance 3 4, .snapshot, .suicide 1, .snapshot, .revert 0]).isSome = true := by decide +kernel

/-- Plain operations see the current picture only. -/
theorem Spec.run_plain {li : Nat} (ops : List Op) (hp : ∀ op ∈ ops, op.plain) {σ τ : Spec} (hc : σ.cur = τ.cur) :
    (σ.run H K li ops).map (·.2) = (τ.run H K li ops).map (·.2) := by
  induction ops generalizing σ τ with
  | nil => rfl
  | cons op ops ih =>
    have e : ∀ σ : Spec, σ.step H K li op = (σ.cur.step H K li op).map fun (v, o) => ({ σ with cur := v }, o) := by
      intro σ
      have := hp op (by simp)
      cases op <;> first | rfl | exact this.elim
    simp only [Spec.run, e, hc]
    cases hs : τ.cur.step H K li op with
    | none => rfl
    | some p =>
      obtain ⟨v, o⟩ := p
      simp only [Option.map_some, Option.bind_some, Option.map_map]
      have := ih (fun op h => hp op (by simp [h])) (σ := { σ with cur := v }) (τ := { τ with cur := v }) rfl
      rw [show ((fun x : Spec × List Out => x.2) ∘ fun x : Spec × List Out => (x.1, o :: x.2)) = (fun l => o :: l) ∘ (·.2) from rfl,
        ← Option.map_map, ← Option.map_map, this]

theorem Spec.run_replay {li : Nat} (l : List Op) {σ : Spec} {v : View} (h : σ.cur.replay H K li l = some v) :
    ∃ os, σ.run H K li l = some ({ σ with cur := v }, os) := by
  induction l generalizing σ with
  | nil =>
    simp only [View.replay, List.foldlM_nil, Option.pure_def, Option.some.injEq] at h
    exact ⟨[], by subst h; rfl⟩
  | cons op l ih =>
    simp only [View.replay, List.foldlM_cons, Option.bind_eq_bind] at h
    cases hs : σ.cur.step H K li op with
    | none => rw [hs] at h; simp at h
    | some p =>
      obtain ⟨w, o⟩ := p
      rw [hs, Option.map_some, Option.bind_some] at h
      obtain ⟨os, ho⟩ := ih (σ := { σ with cur := w }) h
      refine ⟨o :: os, ?_⟩
      have : σ.step H K li op = some ({ σ with cur := w }, o) := by
        cases op <;> first | (cases hs; done) | (simp only [Spec.step, hs]; rfl)
      simp only [Spec.run, this, Option.bind_some, ho, Option.map_some]

/-- Reverted operations leave no trace: a transaction in which operations were reverted answers every further plain operation
like a transaction that performed the other operations only. -/
theorem reverted_operations_leave_no_trace (H : Bytes → Hash) (K : Store) (li : Nat) (ops : List Op) (s : SDB) (os : List Out)
    (h : SDB.run H K { logIndex := li } ops = some (s, os)) :
    ∃ s' os', SDB.run H K { logIndex := li } (survivors ops) = some (s', os') ∧
      ∀ probes : List Op, (∀ op ∈ probes, op.plain) → (s.run H K probes).map (·.2) = (s'.run H K probes).map (·.2) := by
  have hW : False → WF H K (fun _ => True) := fun h => h.elim
  rcases R.run (S := fun _ => True) (W := False) hW ops (R.init (H := H) (K := K) li) (fun h => h.elim) with
    ⟨-, h'⟩ | ⟨s₁, σ₁, os₁, a1, a2, r1, l1⟩
  · rw [h] at h'; cases h'
  rw [h] at a1; cases a1
  have ht := (Told.init (H := H) (K := K) li).run ops a2
  obtain ⟨os', ho⟩ := Spec.run_replay (σ := Spec.init H K) _ ht.cur
  rcases R.run (S := fun _ => True) (W := False) hW (survivors ops) (R.init (H := H) (K := K) li) (fun h => h.elim) with
    ⟨h', -⟩ | ⟨s₂, σ₂, os₂, b1, b2, r2, l2⟩
  · have h'' : (Spec.init H K).run H K li (survivors ops) = none := h'
    unfold survivors history at h''
    rw [ho] at h''; cases h''
  refine ⟨s₂, os₂, b1, ?_⟩
  have b2' : (Spec.init H K).run H K li (survivors ops) = some (σ₂, os₂) := b2
  unfold survivors history at b2'
  rw [ho] at b2'
  cases b2'
  intro probes hp
  have e : ∀ {s : SDB} {σ : Spec}, R H K (fun _ => True) False s σ → (s.run H K probes).map (·.2) = (σ.run H K s.logIndex probes).map (·.2) := by
    intro s σ r
    rcases R.run hW probes r (fun h => h.elim) with ⟨k1, k2⟩ | ⟨s', σ', os, k1, k2, -, -⟩
    · rw [k1, k2]; rfl
    · rw [k1, k2]; rfl
  rw [e r1, e r2, l1, l2]
  exact Spec.run_plain probes hp rfl

/- The operations that count in the toy transaction. -/
example : (survivors toyOps).length = 7 ∧ (SDB.run toyH toyK {} toyOps).isSome = true := by decide +kernel

/-! ### C19 -/

/-- An address is warm exactly if it was added, by itself or with a slot, by an operation that was not reverted. -/
theorem address_warm_iff (H : Bytes → Hash) (K : Store) (li : Nat) (ops : List Op) (s : SDB) (os : List Out)
    (h : SDB.run H K { logIndex := li } ops = some (s, os)) (a : Addr) :
    ∃ b, s.step H K (.addressInAccessList a) = some (s, .bool b) ∧
      (b = true ↔ .addAddress a ∈ survivors ops ∨ ∃ k, .addSlot a k ∈ survivors ops) := by
  have hW : False → WF H K (fun _ => True) := fun h => h.elim
  rcases R.run (S := fun _ => True) (W := False) hW ops (R.init (H := H) (K := K) li) (fun h => h.elim) with
    ⟨-, h'⟩ | ⟨s₁, σ₁, os₁, a1, a2, r1, l1⟩
  · rw [h] at h'; cases h'
  rw [h] at a1; cases a1
  have ht := (Told.init (H := H) (K := K) li).run ops a2
  have hw := (View.replay_warm _ ht.cur).1 a
  refine ⟨_, rfl, ?_⟩
  have : s.al.containsAddress a = σ₁.cur.warm a := by rw [← r1.view]; rfl
  rw [this, hw]
  simp only [Store.view, Bool.false_or, List.any_eq_true, survivors, history]
  constructor
  · rintro ⟨op, h1, h2⟩
    cases op with
    | addAddress b => simp only [Op.warms, beq_iff_eq] at h2; subst h2; exact .inl h1
    | addSlot b k => simp only [Op.warms, beq_iff_eq] at h2; subst h2; exact .inr ⟨k, h1⟩
    | _ => simp [Op.warms] at h2
  · rintro (h | ⟨k, h⟩)
    · exact ⟨_, h, by simp [Op.warms]⟩
    · exact ⟨_, h, by simp [Op.warms]⟩

/-- A slot is warm exactly if it was added by an operation that was not reverted; the first of the two answers is about the
address. -/
theorem slot_warm_iff (H : Bytes → Hash) (K : Store) (li : Nat) (ops : List Op) (s : SDB) (os : List Out)
    (h : SDB.run H K { logIndex := li } ops = some (s, os)) (a : Addr) (k : Key) :
    ∃ b c, s.step H K (.slotInAccessList a k) = some (s, .bools b c) ∧
      (b = true ↔ .addAddress a ∈ survivors ops ∨ ∃ k, .addSlot a k ∈ survivors ops) ∧
      (c = true ↔ .addSlot a k ∈ survivors ops) := by
  have hW : False → WF H K (fun _ => True) := fun h => h.elim
  obtain ⟨b, hb, hb'⟩ := address_warm_iff H K li ops s os h a
  rcases R.run (S := fun _ => True) (W := False) hW ops (R.init (H := H) (K := K) li) (fun h => h.elim) with
    ⟨-, h'⟩ | ⟨s₁, σ₁, os₁, a1, a2, r1, l1⟩
  · rw [h] at h'; cases h'
  rw [h] at a1; cases a1
  have ht := (Told.init (H := H) (K := K) li).run ops a2
  have hw := (View.replay_warm _ ht.cur).2.1 a k
  refine ⟨_, _, rfl, ?_, ?_⟩
  · have : (s.al.contains a k).1 = s.al.containsAddress a := by
      unfold AccessList.contains AccessList.containsAddress
      split
      · rename_i h; simp [h]
      · rename_i h; split <;> simp [h]
    rw [this]
    simp only [SDB.step, Option.some.injEq, Prod.mk.injEq, true_and, Out.bool.injEq] at hb
    rw [hb]; exact hb'
  · have : (s.al.contains a k).2 = σ₁.cur.warmSlot a k := by rw [← r1.view]; rfl
    rw [this, hw]
    simp only [Store.view, Bool.false_or, List.any_eq_true, survivors, history]
    constructor
    · rintro ⟨op, h1, h2⟩
      cases op with
      | addSlot b k' => simp only [Op.warmsSlot, Bool.and_eq_true, beq_iff_eq] at h2; obtain ⟨rfl, rfl⟩ := h2; exact h1
      | _ => simp [Op.warmsSlot] at h2
    · intro h
      exact ⟨_, h, by simp [Op.warmsSlot]⟩

/- A slot added and reverted is cold again, one added before stays warm, and re-adding works. -/
example : (SDB.run toyH toyK {} [.addSlot 1 3, .snapshot, .addSlot 1 4, .addAddress 2, .addSlot 2 5, .revert 0, .slotInAccessList 1 3,
      .slotInAccessList 1 4, .slotInAccessList 2 5, .addSlot 2 6, .slotInAccessList 2 6, .slotInAccessList 2 5]).map (·.2.drop 6) =
    some [.bools true true, .bools true false, .bools false false, .done, .bools true true, .bools true false] := by decide +kernel

/-- The list tells first additions from repeated ones: this is what decides whether a journal entry is made. -/
theorem first_addition_reported (al : AccessList) (a : Addr) (k : Key) :
    (al.addAddress a).2 = (!al.containsAddress a) ∧ (al.addSlot a k).2.1 = (!al.containsAddress a) ∧
    (al.addSlot a k).2.2 = (!(al.contains a k).2) := by
  refine ⟨?_, ?_, AccessList.addSlot_flags.2.1⟩
  · rw [AccessList.addAddress_flag]; unfold AccessList.containsAddress; cases al.addresses a <;> rfl
  · rw [AccessList.addSlot_flags.1]; unfold AccessList.containsAddress; cases al.addresses a <;> rfl

example : (((({} : AccessList).addSlot 1 3).1.addSlot 1 3).2, ((({} : AccessList).addSlot 1 3).1.addSlot 1 4).2) =
    ((false, false), (false, true)) := by decide +kernel

/-! ### C20 -/

/-- The refund counter: what was added is what was subtracted plus what is left, counting operations that were not reverted, as
64-bit numbers. -/
theorem refund_counter (H : Bytes → Hash) (K : Store) (li : Nat) (ops : List Op) (s : SDB) (os : List Out)
    (h : SDB.run H K { logIndex := li } ops = some (s, os)) :
    ∃ r, s.step H K .getRefund = some (s, .nat r) ∧
      (r + subtracted (survivors ops)) % 2 ^ 64 = added (survivors ops) % 2 ^ 64 ∧
      (added (survivors ops) < 2 ^ 64 → r + subtracted (survivors ops) = added (survivors ops)) := by
  have hW : False → WF H K (fun _ => True) := fun h => h.elim
  rcases R.run (S := fun _ => True) (W := False) hW ops (R.init (H := H) (K := K) li) (fun h => h.elim) with
    ⟨-, h'⟩ | ⟨s₁, σ₁, os₁, a1, a2, r1, l1⟩
  · rw [h] at h'; cases h'
  rw [h] at a1; cases a1
  have ht := (Told.init (H := H) (K := K) li).run ops a2
  obtain ⟨-, -, h3, h4⟩ := View.replay_warm _ ht.cur
  refine ⟨_, rfl, ?_⟩
  have : s.refund = σ₁.cur.refund := by rw [← r1.view]; rfl
  rw [this]
  simp only [Store.view, Nat.zero_add] at h3 h4
  exact ⟨h3, h4⟩

/-- Subtracting more than there is panics, and nothing else about the counter does: it never becomes negative. -/
theorem refund_never_negative (H : Bytes → Hash) (K : Store) (s : SDB) (g : Nat) :
    (s.step H K (.subRefund g) = none ↔ s.refund < g) ∧ ∀ s' o, s.step H K (.subRefund g) = some (s', o) → s'.refund + g = s.refund := by
  simp only [SDB.step]
  constructor
  · split <;> simp_all
  · intro s' o h
    split at h
    · cases h
    · simp only [Option.some.injEq, Prod.mk.injEq] at h
      obtain ⟨rfl, -⟩ := h
      simp only; omega

example : (SDB.run toyH toyK {} [.addRefund 7, .snapshot, .subRefund 5, .revert 0, .subRefund 6, .getRefund]).map (·.2) =
    some [.done, .nat 0, .done, .done, .done, .nat 1] := by decide +kernel
example : SDB.run toyH toyK {} [.addRefund 7, .subRefund 5, .subRefund 3] = none := rfl

/-- A snapshot's identifier is the number of snapshots taken before, reverted or not: identifiers are never reused. -/
theorem snapshot_identifier (H : Bytes → Hash) (K : Store) (li : Nat) (ops : List Op) (s : SDB) (os : List Out)
    (h : SDB.run H K { logIndex := li } ops = some (s, os)) :
    ∃ s', s.step H K .snapshot = some (s', .nat (snapshots ops)) := by
  have hW : False → WF H K (fun _ => True) := fun h => h.elim
  rcases R.run (S := fun _ => True) (W := False) hW ops (R.init (H := H) (K := K) li) (fun h => h.elim) with
    ⟨-, h'⟩ | ⟨s₁, σ₁, os₁, a1, a2, r1, l1⟩
  · rw [h] at h'; cases h'
  rw [h] at a1; cases a1
  have ht := (Told.init (H := H) (K := K) li).run ops a2
  have hn := Hist.next_eq ops {}
  refine ⟨{ s with nextRev := s.nextRev + 1, revs := s.revs ++ [(s.nextRev, s.journal.length)] }, ?_⟩
  have : s.nextRev = snapshots ops := by rw [r1.next, ht.next, hn]; simp
  simp only [SDB.step, this]

/-- A snapshot can be reverted to exactly while it is open. -/
theorem revert_iff_open (H : Bytes → Hash) (K : Store) (li : Nat) (ops : List Op) (s : SDB) (os : List Out)
    (h : SDB.run H K { logIndex := li } ops = some (s, os)) (id : Nat) :
    (s.step H K (.revert id)).isSome = true ↔ id ∈ openIds ops := by
  have hW : False → WF H K (fun _ => True) := fun h => h.elim
  rcases R.run (S := fun _ => True) (W := False) hW ops (R.init (H := H) (K := K) li) (fun h => h.elim) with
    ⟨-, h'⟩ | ⟨s₁, σ₁, os₁, a1, a2, r1, l1⟩
  · rw [h] at h'; cases h'
  rw [h] at a1; cases a1
  have ht := (Told.init (H := H) (K := K) li).run ops a2
  have hids : openIds ops = σ₁.saved.map (·.1) := by
    have := congrArg (List.map (·.1)) ht.saved
    simp only [List.map_map, Function.comp_def] at this
    exact this.symm
  have hfind : (σ₁.saved.find? (fun p => p.1 == id)).isSome = true ↔ id ∈ openIds ops := by
    rw [hids, List.find?_isSome, List.mem_map]
    constructor
    · rintro ⟨p, h1, h2⟩; exact ⟨p, h1, by simpa using h2⟩
    · rintro ⟨p, h1, h2⟩; exact ⟨p, h1, by simpa using h2⟩
  rw [← hfind]
  rcases r1.step hW (.revert id) (fun h => h.elim) with ⟨g1, g2⟩ | ⟨s', σ', o, g1, g2, -, -⟩
  · rw [g2]
    simp only [Spec.step] at g1
    split at g1
    · rename_i hf; rw [hf]; simp
    · cases g1
  · rw [g1]
    simp only [Spec.step] at g2
    split at g2
    · cases g2
    · rename_i hf; rw [hf]; simp

/-- Reverting to a snapshot closes it and all later ones for good: any later attempt to revert to one of them panics. -/
theorem revert_closes_later (H : Bytes → Hash) (K : Store) (li : Nat) (ops₁ ops₂ : List Op) (id id' : Nat) (s : SDB) (os : List Out)
    (h : SDB.run H K { logIndex := li } (ops₁ ++ .revert id :: ops₂) = some (s, os)) (hid : id ≤ id') (hn : id' < snapshots ops₁) :
    s.step H K (.revert id') = none := by
  have key := revert_iff_open H K li _ s os h id'
  cases hs : s.step H K (.revert id') with
  | none => rfl
  | some p =>
    rw [hs] at key
    have hm : id' ∈ openIds (ops₁ ++ .revert id :: ops₂) := key.1 rfl
    unfold openIds history at hm
    obtain ⟨p, hp, rfl⟩ := List.mem_map.1 hm
    rw [List.foldl_append, List.foldl_cons] at hp
    have hnext := Hist.next_eq ops₁ {}
    have hn' : p.1 < (Hist.step (ops₁.foldl Hist.step {}) (.revert id)).next := by
      have : (Hist.step (ops₁.foldl Hist.step {}) (.revert id)).next = (ops₁.foldl Hist.step {}).next := by
        simp only [Hist.step]; split <;> rfl
      rw [this, hnext]; simp; exact hn
    -- the revert itself must have been possible
    have hop : (ops₁.foldl Hist.step {}).saved.find? (fun p => p.1 == id) ≠ none := by
      intro hnone
      rcases R.run (S := fun _ => True) (W := False) (fun h => h.elim) ops₁ (R.init (H := H) (K := K) li) (fun h => h.elim) with
        ⟨-, h'⟩ | ⟨s₁, σ₁, os₁, a1, a2, r1, l1⟩
      · have : SDB.run H K { logIndex := li } (ops₁ ++ .revert id :: ops₂) = none := by
          have ha : ∀ (l l' : List Op) (s : SDB), s.run H K l = none → s.run H K (l ++ l') = none := by
            intro l
            induction l with
            | nil => intro l' s h; cases h
            | cons op l ih =>
              intro l' s h
              simp only [SDB.run, List.cons_append] at *
              cases hs : s.step H K op with
              | none => rfl
              | some p =>
                rw [hs, Option.bind_some] at h; rw [Option.bind_some]
                obtain ⟨s', o⟩ := p
                simp only [Option.map_eq_none_iff] at h ⊢
                exact ih l' s' h
          exact ha _ _ _ h'
        rw [this] at h; cases h
      · have hr := (revert_iff_open H K li ops₁ s₁ os₁ a1 id)
        have hno : s₁.step H K (.revert id) = none := by
          cases hs : s₁.step H K (.revert id) with
          | none => rfl
          | some p =>
            rw [hs] at hr
            have := hr.1 rfl
            obtain ⟨q, q1, q2⟩ := List.mem_map.1 this
            have := List.find?_eq_none.1 hnone q q1
            simp [q2] at this
        have ha : ∀ (l l' : List Op) (s s₁ : SDB) (os : List Out), s.run H K l = some (s₁, os) → s₁.run H K l' = none → s.run H K (l ++ l') = none := by
          intro l
          induction l with
          | nil => intro l' s s₁ os h h'; simp only [SDB.run, Option.some.injEq, Prod.mk.injEq] at h; rw [h.1]; exact h'
          | cons op l ih =>
            intro l' s s₁ os h h'
            simp only [SDB.run, List.cons_append] at *
            cases hs : s.step H K op with
            | none => rfl
            | some p =>
              rw [hs, Option.bind_some] at h; rw [Option.bind_some]
              obtain ⟨s', o⟩ := p
              obtain ⟨⟨s'', os'⟩, h1, h2⟩ := Option.map_eq_some_iff.1 h
              cases h2
              simp only [Option.map_eq_none_iff]
              exact ih l' s' _ os' h1 h'
        rw [ha ops₁ _ _ _ _ a1 (by simp only [SDB.run, hno, Option.bind_none])] at h
        cases h
    refine absurd rfl (Hist.gone ops₂ _ hn' ?_ p hp)
    intro q hq
    simp only [Hist.step] at hq
    split at hq
    · contradiction
    · have := (List.mem_filter.1 hq).2
      simp only [decide_eq_true_eq] at this
      omega

example : snapshots [.snapshot, .snapshot, .snapshot, .revert 1, .snapshot] = 4 ∧ openIds [.snapshot, .snapshot, .snapshot, .revert 1, .snapshot] = [0, 3] ∧
    (SDB.run toyH toyK {} [.snapshot, .snapshot, .snapshot, .revert 1, .snapshot, .revert 3, .revert 0]).map (·.2) =
      some [.nat 0, .nat 1, .nat 2, .done, .nat 3, .done, .done] := by decide +kernel

/-! ### C18 -/

/-- Full property: committing stores for every account exactly what was last observed, removes self-destructed accounts, and
leaves untouched accounts as they were.  The code does not do this for every sequence of operations (see the two theorems after
this one); it does, whenever

* an existing account replaced by `CreateAccount` is also changed afterwards (`h1`; the EVM sets the nonce of a new contract),
* no touched account has a negative balance (`h2`; the EVM checks before it subtracts), and
* self-destructed accounts are contracts already or did not exist before the transaction (`h3`).

The store that results is well formed again, so the theorem applies to transaction after transaction. -/
theorem commit_writes_the_final_state_partial (H : Bytes → Hash) (K : Store) (S : Bytes → Prop) (hK : WF H K S) (li : Nat)
    (ops : List Op) (hS : ∀ op ∈ ops, op.codeIn S) (s : SDB) (os os' : List Out) (σ : Spec)
    (h : SDB.run H K { logIndex := li } ops = some (s, os)) (hσ : (Spec.init H K).run H K li ops = some (σ, os'))
    (h1 : ∀ a, σ.cur.recreated a = true → σ.cur.touched a = true)
    (h2 : ∀ a ac, σ.cur.accts a = some ac → σ.cur.touched a = true → ac.suicided = false → 0 ≤ ac.balance)
    (h3 : ∀ a ac, σ.cur.accts a = some ac → ac.suicided = true → K.seq a = none ∨ K.codeHash a ≠ none) :
    ∃ T, s.commit H K = some T ∧
      (∀ a, T.acct H a = σ.cur.settled a) ∧
      (∀ a, σ.cur.touched a = false → T.seq a = K.seq a ∧ T.bal a = K.bal a ∧ T.codeHash a = K.codeHash a ∧ T.state a = K.state a) ∧
      (∀ h c, K.code h = some c → T.code h = some c) ∧ WF H T S := by
  rcases R.run (S := S) (W := True) (fun _ => hK) ops (R.init (H := H) (K := K) li) (fun _ => hS) with
    ⟨-, h'⟩ | ⟨s₁, σ₁, os₁, a1, a2, r1, l1⟩
  · rw [h] at h'; cases h'
  rw [h] at a1; cases a1
  have a2' : (Spec.init H K).run H K li ops = some (σ₁, os) := a2
  rw [hσ] at a2'; cases a2'
  have ht := (Told.init (H := H) (K := K) li).run ops a2
  obtain ⟨T, t1, t2, t3, t4, t5⟩ := commit_ok hK r1 ht h1 h2 h3
  refine ⟨T, t1, t2, fun a ha => ?_, t4, t5⟩
  have := t3 a ha
  simp only [Store.raw, Prod.mk.injEq] at this
  exact this

/-- The codes of the toy examples. -/
def toyS (c : Bytes) : Prop := c = [] ∨ c = [7] ∨ c = [1, 2]

theorem toyK_wf : WF toyH toyK toyS where
  code := by
    intro h c hc
    simp only [toyK] at hc
    split at hc
    · rename_i e; cases hc; exact ⟨by simp, e.symm, .inr (.inl rfl)⟩
    · cases hc
  hash := by
    intro a h hh
    simp only [toyK] at hh
    split at hh
    · cases hh; exact ⟨[7], by simp [toyK]⟩
    · cases hh
  nil := .inl rfl
  inj := by
    rintro c d (rfl | rfl | rfl) (rfl | rfl | rfl) h <;> first | rfl | (exact absurd h (by decide))

/- A transaction that meets all hypotheses of the theorem. -/
example : ∃ T, ((SDB.run toyH toyK {} [.addBalance 3 4, .setState 1 3 8, .snapshot, .subBalance 2 7, .revert 0, .suicide 1]).bind
      fun p => p.1.commit toyH toyK) = some T ∧ T.acct toyH 1 = none ∧ (T.acct toyH 3).map (·.balance) = some 4 ∧
      T.seq 2 = some 0 ∧ T.bal 2 = 100 := by
  have hrun : ∃ s os, SDB.run toyH toyK {} [.addBalance 3 4, .setState 1 3 8, .snapshot, .subBalance 2 7, .revert 0, .suicide 1] =
    some (s, os) := ⟨_, _, rfl⟩
  obtain ⟨s, os, hs⟩ := hrun
  obtain ⟨T, t1, t2, t3, -, -⟩ := commit_writes_the_final_state_partial toyH toyK toyS toyK_wf 0 _ (by
      intro op hop
      simp only [List.mem_cons, List.not_mem_nil, or_false] at hop
      rcases hop with rfl | rfl | rfl | rfl | rfl | rfl <;> trivial) s os _ _ hs rfl
    (by intro a h; cases h)
    (by
      intro a ac hac _ hsu
      by_cases e1 : a = 1
      · subst e1; cases hac; cases hsu
      · by_cases e3 : a = 3
        · subst e3; cases hac; decide
        · simp only [View.set, upd, e1, e3, if_false] at hac
          change upd (toyK.acct toyH) 3 _ a = some ac at hac
          rw [upd_other _ _ e3] at hac
          obtain ⟨n, -, rfl⟩ := Option.map_eq_some_iff.1 hac
          exact Int.natCast_nonneg _)
    (by
      intro a ac hac hsu
      by_cases e1 : a = 1
      · subst e1; right; decide
      · by_cases e3 : a = 3
        · subst e3; left; rfl
        · simp only [View.set, upd, e1, e3, if_false] at hac
          change upd (toyK.acct toyH) 3 _ a = some ac at hac
          rw [upd_other _ _ e3] at hac
          obtain ⟨n, -, rfl⟩ := Option.map_eq_some_iff.1 hac
          cases hsu)
  refine ⟨T, by rw [hs]; exact t1, by rw [t2]; rfl, by rw [t2]; rfl, (t3 2 rfl).1, (t3 2 rfl).2.1⟩

/- A transaction that sets storage and code, creates an account, self-destructs the contract and reverts
some of it; the commit succeeds. -/
example : ∃ s os T, SDB.run toyH toyK {} (toyOps ++ [.suicide 1]) = some (s, os) ∧ s.commit toyH toyK = some T ∧
    T.seq 1 = none ∧ T.bal 3 = 4 ∧ T.code (toyH [1, 2]) = some [1, 2] ∧ T.state 1 3 = 0 := by
  refine ⟨_, _, _, rfl, rfl, ?_⟩
  decide +kernel

/-- An existing account replaced by `CreateAccount` and not changed otherwise is not written: the reset does not mark it as
dirty (journal.go: `resetObjectChange.Dirtied` returns nil), although the transaction has seen nonce 0 and no code. -/
theorem recreated_account_not_written :
    ∃ s os T σ os', SDB.run toyH toyK {} [.createAccount 1, .getNonce 1, .getCode 1] = some (s, os) ∧
      (Spec.init toyH toyK).run toyH toyK 0 [.createAccount 1, .getNonce 1, .getCode 1] = some (σ, os') ∧
      os = [.done, .nat 0, .bytes []] ∧ s.commit toyH toyK = some T ∧
      (T.acct toyH 1).map (fun ac => (ac.nonce, ac.code)) = some (5, [7]) ∧
      (σ.cur.settled 1).map (fun ac => (ac.nonce, ac.code)) = some (0, []) := by
  refine ⟨_, _, _, _, _, rfl, rfl, ?_, rfl, ?_, ?_⟩ <;> decide +kernel

/-- A contract created at an address that already had an account without code (say, because somebody sent coins there) and
destroyed in the same transaction makes the commit fail ("only smart contracts can be self-destructed"), and with it the whole
transaction. -/
theorem selfdestruct_at_funded_address_fails :
    ∃ s os, SDB.run toyH toyK {} [.createAccount 2, .setNonce 2 1, .setCode 2 [1, 2], .suicide 2] = some (s, os) ∧
      s.commit toyH toyK = none := by
  refine ⟨_, _, rfl, ?_⟩
  have : ∀ o : Option Store, o.isNone = true → o = none := by intro o h; simpa using h
  apply this
  decide +kernel

end EVM
