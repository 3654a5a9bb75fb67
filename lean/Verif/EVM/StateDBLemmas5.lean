import Verif.EVM.StateDBLemmas4
/-!
# EVM state: what the specification's pictures say about the operations that were not reverted
-/
namespace EVM

variable {H : Bytes → Hash} {K : Store}

/-- Replaying operations on a picture. -/
def View.replay (H : Bytes → Hash) (K : Store) (li : Nat) (v : View) (l : List Op) : Option View :=
  l.foldlM (fun v op => (v.step H K li op).map (·.1)) v

/-- Does the operation warm the address? -/
def Op.warms (a : Addr) : Op → Bool
  | .addAddress b => b == a
  | .addSlot b _ => b == a
  | _ => false

/-- Does the operation warm the slot? -/
def Op.warmsSlot (a : Addr) (k : Key) : Op → Bool
  | .addSlot b k' => b == a && k' == k
  | _ => false

theorem orNew_keep (v : View) (a : Addr) : (v.orNew H K a).1.warm = v.warm ∧ (v.orNew H K a).1.warmSlot = v.warmSlot ∧
    (v.orNew H K a).1.refund = v.refund ∧ (v.orNew H K a).1.logs = v.logs := by
  unfold View.orNew
  split <;> simp [View.set]

theorem View.step_warm {li : Nat} {v v' : View} {op : Op} {o : Out} (h : v.step H K li op = some (v', o)) :
    (∀ a, v'.warm a = (v.warm a || op.warms a)) ∧ (∀ a k, v'.warmSlot a k = (v.warmSlot a k || op.warmsSlot a k)) ∧
    (v'.refund + subtracted [op]) % 2 ^ 64 = (v.refund + added [op]) % 2 ^ 64 ∧
    (v.refund + added [op] < 2 ^ 64 → v'.refund + subtracted [op] = v.refund + added [op]) := by
  cases op with
  | addAddress b =>
    simp only [View.step, Option.some.injEq, Prod.mk.injEq] at h
    obtain ⟨rfl, -⟩ := h
    refine ⟨?_, by simp [Op.warmsSlot], by simp [added, subtracted], by simp [added, subtracted]⟩
    intro a
    by_cases e : a = b
    · subst e; simp [upd, Op.warms]
    · simp [upd, Op.warms, e, Ne.symm e]
  | addSlot b k =>
    simp only [View.step, Option.some.injEq, Prod.mk.injEq] at h
    obtain ⟨rfl, -⟩ := h
    refine ⟨?_, ?_, by simp [added, subtracted], by simp [added, subtracted]⟩
    · intro a
      by_cases e : a = b
      · subst e; simp [upd, Op.warms]
      · simp [upd, Op.warms, e, Ne.symm e]
    · intro a k'
      by_cases e : a = b
      · subst e
        by_cases e : k' = k
        · subst e; simp [upd, Op.warmsSlot]
        · simp [upd, Op.warmsSlot, e, Ne.symm e]
      · simp [upd, Op.warmsSlot, e, Ne.symm e]
  | addRefund g =>
    simp only [View.step, Option.some.injEq, Prod.mk.injEq] at h
    obtain ⟨rfl, -⟩ := h
    refine ⟨by simp [Op.warms], by simp [Op.warmsSlot], ?_, ?_⟩
    · simp only [added, subtracted, Nat.add_zero]; exact Nat.mod_mod _ _
    · simp only [added, subtracted, Nat.add_zero]; exact Nat.mod_eq_of_lt
  | subRefund g =>
    simp only [View.step] at h
    split at h
    · cases h
    · simp only [Option.some.injEq, Prod.mk.injEq] at h
      obtain ⟨rfl, -⟩ := h
      refine ⟨by simp [Op.warms], by simp [Op.warmsSlot], ?_, ?_⟩ <;>
      · simp only [added, subtracted, Nat.add_zero]
        rename_i hg
        rw [Nat.sub_add_cancel (by omega)]
        try simp
  | snapshot => cases h
  | revert _ => cases h
  | _ =>
    have : v'.warm = v.warm ∧ v'.warmSlot = v.warmSlot ∧ v'.refund = v.refund := by
      simp only [View.step] at h
      (repeat' split at h) <;>
        simp only [Option.some.injEq, Prod.mk.injEq] at h <;> obtain ⟨rfl, -⟩ := h <;>
        simp only [View.set, (orNew_keep (H := H) (K := K) v _).1, (orNew_keep (H := H) (K := K) v _).2.1,
          (orNew_keep (H := H) (K := K) v _).2.2.1, and_self]
    obtain ⟨h1, h2, h3⟩ := this
    simp [h1, h2, h3, Op.warms, Op.warmsSlot, added, subtracted]

theorem View.replay_warm {li : Nat} (l : List Op) {v v' : View} (h : v.replay H K li l = some v') :
    (∀ a, v'.warm a = (v.warm a || l.any (Op.warms a))) ∧
    (∀ a k, v'.warmSlot a k = (v.warmSlot a k || l.any (Op.warmsSlot a k))) ∧
    (v'.refund + subtracted l) % 2 ^ 64 = (v.refund + added l) % 2 ^ 64 ∧
    (v.refund + added l < 2 ^ 64 → v'.refund + subtracted l = v.refund + added l) := by
  induction l generalizing v with
  | nil => simp only [View.replay, List.foldlM_nil, Option.pure_def, Option.some.injEq] at h; subst h; simp [added, subtracted]
  | cons op l ih =>
    simp only [View.replay, List.foldlM_cons, Option.bind_eq_bind] at h
    cases hs : v.step H K li op with
    | none => rw [hs] at h; simp at h
    | some p =>
      obtain ⟨w, o⟩ := p
      rw [hs, Option.map_some, Option.bind_some] at h
      obtain ⟨h1, h2, h4, h5⟩ := View.step_warm hs
      obtain ⟨g1, g2, g3, g4⟩ := ih (v := w) h
      have ha : added (op :: l) = added [op] + added l := by cases op <;> simp [added]
      have hb : subtracted (op :: l) = subtracted [op] + subtracted l := by cases op <;> simp [subtracted]
      refine ⟨fun a => by rw [g1, h1]; simp [Bool.or_assoc], fun a k => by rw [g2, h2]; simp [Bool.or_assoc], ?_, ?_⟩
      · rw [ha, hb]; omega
      · rw [ha, hb]; intro hl
        have := h5 (by omega)
        have := g4 (by omega)
        omega

/-- The pictures of the specification are replays of the operations that count. -/
structure Told (H : Bytes → Hash) (K : Store) (li : Nat) (σ : Spec) (h : Hist) : Prop where
  cur : (K.view H).replay H K li h.ops = some σ.cur
  saved : σ.saved.map (fun p => (p.1, some p.2)) = h.saved.map (fun p => (p.1, (K.view H).replay H K li p.2))
  next : σ.next = h.next

theorem Told.step {li : Nat} {σ σ' : Spec} {h : Hist} {op : Op} {o : Out} (t : Told H K li σ h)
    (hs : σ.step H K li op = some (σ', o)) : Told H K li σ' (h.step op) := by
  have main : (σ.cur.step H K li op).map (fun (v, o) => (({ σ with cur := v } : Spec), o)) = some (σ', o) →
      Told H K li σ' { h with ops := h.ops ++ [op] } := by
    intro hs
    obtain ⟨⟨v, o'⟩, h1, h2⟩ := Option.map_eq_some_iff.1 hs
    cases h2
    refine ⟨?_, t.saved, t.next⟩
    have : (K.view H).replay H K li (h.ops ++ [op]) = ((K.view H).replay H K li h.ops).bind fun v => (v.step H K li op).map (·.1) := by
      simp [View.replay, List.foldlM_append]
    show (K.view H).replay H K li (h.ops ++ [op]) = some v
    rw [this, t.cur, Option.bind_some, h1]; rfl
  cases op with
  | snapshot =>
    simp only [Spec.step, Option.some.injEq, Prod.mk.injEq] at hs
    obtain ⟨rfl, rfl⟩ := hs
    refine ⟨t.cur, ?_, by simp [Hist.step, t.next]⟩
    simp only [Hist.step, List.map_append, t.saved, List.map_cons, List.map_nil, t.next, t.cur]
  | revert id =>
    simp only [Spec.step] at hs
    have hf : (σ.saved.find? (fun p => p.1 == id)).map (fun p => (p.1, some p.2)) =
        (h.saved.find? (fun p => p.1 == id)).map (fun p => (p.1, (K.view H).replay H K li p.2)) := by
      have := congrArg (List.find? (fun p => p.1 == id)) t.saved
      simpa only [List.find?_map, Function.comp_def] using this
    cases hσ : σ.saved.find? (fun p => p.1 == id) with
    | none => rw [hσ] at hs; cases hs
    | some p =>
      obtain ⟨i, v⟩ := p
      rw [hσ] at hs hf
      simp only [Option.some.injEq, Prod.mk.injEq] at hs
      obtain ⟨rfl, rfl⟩ := hs
      cases hh : h.saved.find? (fun p => p.1 == id) with
      | none => rw [hh] at hf; simp at hf
      | some q =>
        obtain ⟨i', l⟩ := q
        rw [hh] at hf
        simp only [Option.map_some, Option.some.injEq, Prod.mk.injEq] at hf
        simp only [Hist.step, hh]
        refine ⟨hf.2.symm, ?_, t.next⟩
        have := congrArg (List.filter (fun p => decide (p.1 < id))) t.saved
        simpa only [List.filter_map, Function.comp_def] using this
  | _ => exact main hs

theorem Told.run {li : Nat} (ops : List Op) {σ σ' : Spec} {h : Hist} {os : List Out} (t : Told H K li σ h)
    (hs : σ.run H K li ops = some (σ', os)) : Told H K li σ' (ops.foldl Hist.step h) := by
  induction ops generalizing σ h os with
  | nil => simp only [Spec.run, Option.some.injEq, Prod.mk.injEq] at hs; exact hs.1 ▸ t
  | cons op ops ih =>
    simp only [Spec.run] at hs
    cases h1 : σ.step H K li op with
    | none => rw [h1] at hs; simp at hs
    | some p =>
      obtain ⟨σ1, o⟩ := p
      rw [h1, Option.bind_some] at hs
      obtain ⟨⟨σ2, os'⟩, h2, h3⟩ := Option.map_eq_some_iff.1 hs
      cases h3
      exact ih (t.step h1) h2

theorem Told.init (li : Nat) : Told H K li (Spec.init H K) {} := ⟨rfl, rfl, rfl⟩

/-! ### Identifiers -/

theorem Hist.next_eq (ops : List Op) (h : Hist) : (ops.foldl Hist.step h).next = h.next + snapshots ops := by
  induction ops generalizing h with
  | nil => simp [snapshots]
  | cons op ops ih =>
    rw [List.foldl_cons, ih]
    have : (h.step op).next = h.next + snapshots [op] := by
      cases op <;> simp only [Hist.step, snapshots] <;> try simp
      split <;> rfl
    rw [this]
    simp only [snapshots, List.countP_cons, List.countP_nil]
    omega

theorem Hist.ids_lt (ops : List Op) : ∀ p ∈ (history ops).saved, p.1 < (history ops).next := by
  have : ∀ h : Hist, (∀ p ∈ h.saved, p.1 < h.next) → ∀ p ∈ (ops.foldl Hist.step h).saved, p.1 < (ops.foldl Hist.step h).next := by
    induction ops with
    | nil => intro h hh; exact hh
    | cons op ops ih =>
      intro h hh
      refine ih _ ?_
      cases op with
      | snapshot =>
        intro p hp
        simp only [Hist.step, List.mem_append, List.mem_singleton] at *
        rcases hp with hp | rfl
        · have := hh p hp; omega
        · simp
      | revert id =>
        simp only [Hist.step]
        split
        · exact hh
        · intro p hp; exact hh p (List.mem_filter.1 hp).1
      | _ => exact hh
  exact this {} (by simp)

/-- Identifiers from `id` on that were given out are gone and stay gone. -/
theorem Hist.gone (ops : List Op) (h : Hist) {id : Nat} (hn : id < h.next) (hg : ∀ p ∈ h.saved, p.1 ≠ id) :
    ∀ p ∈ (ops.foldl Hist.step h).saved, p.1 ≠ id := by
  induction ops generalizing h with
  | nil => exact hg
  | cons op ops ih =>
    refine ih (h.step op) ?_ ?_
    · cases op <;> simp only [Hist.step] <;> try omega
      split <;> exact hn
    · cases op with
      | snapshot =>
        intro p hp
        simp only [Hist.step, List.mem_append, List.mem_singleton] at hp
        rcases hp with hp | rfl
        · exact hg p hp
        · simp only; omega
      | revert id =>
        simp only [Hist.step]
        split
        · exact hg
        · intro p hp; exact hg p (List.mem_filter.1 hp).1
      | _ => exact hg

/-! ### Reverting to a snapshot of the specification -/

/-- After a snapshot with identifier `id` on `σ₁`: it is still there, untouched, or it is gone for good. -/
def Kept (σ₁ : Spec) (id : Nat) (σ : Spec) : Prop :=
  id < σ.next ∧ ((∀ p ∈ σ.saved, p.1 ≠ id) ∨
    (σ.saved.filter (fun p => p.1 < id) = σ₁.saved ∧ ∀ p ∈ σ.saved, p.1 = id → p.2 = σ₁.cur))

theorem Kept.step {li : Nat} {σ₁ σ σ' : Spec} {id : Nat} {op : Op} {o : Out} (h : Kept σ₁ id σ)
    (hs : σ.step H K li op = some (σ', o)) : Kept σ₁ id σ' := by
  have main : (σ.cur.step H K li op).map (fun (v, o) => (({ σ with cur := v } : Spec), o)) = some (σ', o) → Kept σ₁ id σ' := by
    intro hs
    obtain ⟨⟨v, o'⟩, h1, h2⟩ := Option.map_eq_some_iff.1 hs
    cases h2
    exact h
  cases op with
  | snapshot =>
    simp only [Spec.step, Option.some.injEq, Prod.mk.injEq] at hs
    obtain ⟨rfl, rfl⟩ := hs
    obtain ⟨hn, h⟩ := h
    refine ⟨by simp only; omega, ?_⟩
    rcases h with h | ⟨h1, h2⟩
    · left
      intro p hp
      simp only [List.mem_append, List.mem_singleton] at hp
      rcases hp with hp | rfl
      · exact h p hp
      · simp only; omega
    · right
      refine ⟨?_, ?_⟩
      · simp only [List.filter_append, h1]
        rw [List.filter_cons_of_neg (by simp; omega)]; simp
      · intro p hp
        simp only [List.mem_append, List.mem_singleton] at hp
        rcases hp with hp | rfl
        · exact h2 p hp
        · simp only; omega
  | revert i =>
    simp only [Spec.step] at hs
    split at hs
    · cases hs
    · simp only [Option.some.injEq, Prod.mk.injEq] at hs
      obtain ⟨rfl, rfl⟩ := hs
      refine ⟨h.1, ?_⟩
      simp only
      rcases h.2 with h | ⟨h1, h2⟩
      · exact .inl (fun p hp => h p (List.mem_filter.1 hp).1)
      · by_cases hi : i ≤ id
        · left
          intro p hp
          have := (List.mem_filter.1 hp).2
          simp only [decide_eq_true_eq] at this
          omega
        · right
          refine ⟨?_, fun p hp => h2 p (List.mem_filter.1 hp).1⟩
          rw [List.filter_filter, ← h1]
          apply List.filter_congr
          intro p _
          by_cases hp : p.1 < id
          · simp [hp]; omega
          · simp [hp]
  | _ => exact main hs

theorem Kept.run {li : Nat} (ops : List Op) {σ₁ σ σ' : Spec} {id : Nat} {os : List Out} (h : Kept σ₁ id σ)
    (hs : σ.run H K li ops = some (σ', os)) : Kept σ₁ id σ' := by
  induction ops generalizing σ os with
  | nil => simp only [Spec.run, Option.some.injEq, Prod.mk.injEq] at hs; exact hs.1 ▸ h
  | cons op ops ih =>
    simp only [Spec.run] at hs
    cases h1 : σ.step H K li op with
    | none => rw [h1] at hs; simp at hs
    | some p =>
      obtain ⟨σ1, o⟩ := p
      rw [h1, Option.bind_some] at hs
      obtain ⟨⟨σ2, os'⟩, h2, h3⟩ := Option.map_eq_some_iff.1 hs
      cases h3
      exact ih (h.step h1) h2

theorem Kept.revert {li : Nat} {σ₁ σ σ' : Spec} {id : Nat} {o : Out} (h : Kept σ₁ id σ)
    (hs : σ.step H K li (.revert id) = some (σ', o)) : σ'.cur = σ₁.cur ∧ σ'.saved = σ₁.saved := by
  simp only [Spec.step] at hs
  split at hs
  · cases hs
  · rename_i i v hf
    simp only [Option.some.injEq, Prod.mk.injEq] at hs
    obtain ⟨rfl, rfl⟩ := hs
    have hm := List.mem_of_find?_eq_some hf
    have he := List.find?_some hf
    simp only [beq_iff_eq] at he
    rcases h.2 with h | ⟨h1, h2⟩
    · exact absurd he (h _ hm)
    · exact ⟨h2 _ hm he, h1⟩

/-- What follows does not depend on the next identifier, as long as no snapshot is taken. -/
theorem Spec.run_next {li : Nat} (ops : List Op) (hn : ∀ op ∈ ops, op ≠ .snapshot) {σ τ : Spec} (hc : σ.cur = τ.cur) (hs : σ.saved = τ.saved) :
    (σ.run H K li ops).map (·.2) = (τ.run H K li ops).map (·.2) := by
  induction ops generalizing σ τ with
  | nil => rfl
  | cons op ops ih =>
    have key : (σ.step H K li op = none ∧ τ.step H K li op = none) ∨ ∃ σ' τ' o, σ.step H K li op = some (σ', o) ∧
        τ.step H K li op = some (τ', o) ∧ σ'.cur = τ'.cur ∧ σ'.saved = τ'.saved := by
      have main : (σ.step H K li op = (σ.cur.step H K li op).map fun (v, o) => ({ σ with cur := v }, o)) →
          (τ.step H K li op = (τ.cur.step H K li op).map fun (v, o) => ({ τ with cur := v }, o)) →
          (σ.step H K li op = none ∧ τ.step H K li op = none) ∨ ∃ σ' τ' o, σ.step H K li op = some (σ', o) ∧
            τ.step H K li op = some (τ', o) ∧ σ'.cur = τ'.cur ∧ σ'.saved = τ'.saved := by
        intro e1 e2
        rw [e1, e2, hc]
        cases τ.cur.step H K li op with
        | none => exact .inl ⟨rfl, rfl⟩
        | some p => exact .inr ⟨_, _, p.2, rfl, rfl, rfl, hs⟩
      cases op with
      | snapshot => exact absurd rfl (hn _ (by simp))
      | revert id =>
        simp only [Spec.step, hs]
        cases τ.saved.find? (fun p => p.1 == id) with
        | none => exact .inl ⟨rfl, rfl⟩
        | some p => exact .inr ⟨_, _, _, rfl, rfl, rfl, rfl⟩
      | _ => exact main rfl rfl
    simp only [Spec.run]
    rcases key with ⟨h1, h2⟩ | ⟨σ', τ', o, h1, h2, h3, h4⟩
    · rw [h1, h2]; try rfl
    · rw [h1, h2, Option.bind_some, Option.bind_some, Option.map_map, Option.map_map]
      have := ih (fun op h => hn op (by simp [h])) h3 h4
      rw [show ((fun x : Spec × List Out => x.2) ∘ fun x : Spec × List Out => (x.1, o :: x.2)) = (fun l => o :: l) ∘ (·.2) from rfl,
        ← Option.map_map, ← Option.map_map, this]

end EVM
