import Verif.Hyperion.OrchSpec
/-!
# Lemmas on registration of orchestrators
-/
namespace Hyperion.Orch

theorem mayRegister_iff {r : Reg} {v o : Nat} :
    mayRegister r v o = true ↔ r.vals v = true ∧ KV.get r.orch o = none ∧ KV.get r.eth v = none ∧ r.allowed o = true := by
  unfold mayRegister
  simp only [Bool.and_eq_true, Option.isNone_iff_eq_none, and_assoc]

/-- All stores have distinct keys. -/
structure Tidy (r : Reg) : Prop where
  orch : KV.Distinct r.orch
  eth : KV.Distinct r.eth
  fees : KV.Distinct r.fees

theorem tidy_init : Tidy init := ⟨.nil, .nil, .nil⟩

theorem tidy_step {r : Reg} (h : Tidy r) (op : Op) : Tidy (step r op) := by
  cases op with
  | register v o e =>
    show Tidy (register r v o e)
    unfold register
    split
    · exact ⟨KV.distinct_set h.orch _ _, KV.distinct_set h.eth _ _, h.fees⟩
    · exact h
  | registerFee v o f b bond =>
    show Tidy (registerFee r v o f b bond)
    unfold registerFee
    split
    · exact ⟨KV.distinct_set h.orch _ _, KV.distinct_set h.eth _ _, KV.distinct_set h.fees _ _⟩
    · exact h
  | updateFee v f b bond =>
    show Tidy (updateFee r v f b bond)
    unfold updateFee
    split
    · exact ⟨h.orch, h.eth, KV.distinct_set h.fees _ _⟩
    · exact h
  | deleteFee v => exact ⟨h.orch, h.eth, KV.distinct_del h.fees _⟩
  | unset v e => exact ⟨KV.distinct_del h.orch _, KV.distinct_del h.eth _, KV.distinct_del h.fees _⟩
  | setVal v b => exact ⟨h.orch, h.eth, h.fees⟩
  | setAllowed l => exact ⟨h.orch, h.eth, h.fees⟩

theorem tidy_run {r : Reg} (h : Tidy r) (ops : List Op) : Tidy (run r ops) := by
  induction ops generalizing r with
  | nil => exact h
  | cons op ops ih => exact ih (tidy_step h op)

theorem set_none {m : List (Nat × Nat)} {k x k' v : Nat} (hk : KV.get m k = none) (h : KV.get m k' = some v) :
    KV.get (KV.set m k x) k' = some v := by
  rw [KV.get_set]
  split
  · rename_i e
    rw [e, hk] at h
    cases h
  · exact h

/-- Linking free names keeps the registry sound. -/
theorem sound_link {r : Reg} (h : Sound r) {v o e : Nat} (ho : KV.get r.orch o = none) (hv : KV.get r.eth v = none)
    (he : ∀ w, ¬ Signs r w e) : Sound (link r v o e) := by
  have hnone : ∀ o', ¬ Acts r o' v := by
    intro o' ha
    obtain ⟨e', hs⟩ := h.acts_signs ha
    unfold Signs at hs
    rw [hv] at hs
    cases hs
  have ha : ∀ o' w, Acts (link r v o e) o' w ↔ (o' = o ∧ w = v) ∨ (o' ≠ o ∧ Acts r o' w) := by
    intro o' w
    show KV.get (KV.set r.orch o v) o' = some w ↔ _
    rw [KV.get_set]
    by_cases e1 : o' = o
    · rw [if_pos e1]
      constructor
      · intro e2; cases e2; exact Or.inl ⟨e1, rfl⟩
      · rintro (⟨_, e2⟩ | ⟨e2, _⟩)
        · rw [e2]
        · exact absurd e1 e2
    · rw [if_neg e1]
      constructor
      · exact fun e2 => Or.inr ⟨e1, e2⟩
      · rintro (⟨e2, _⟩ | ⟨_, e2⟩)
        · exact absurd e2 e1
        · exact e2
  have hs : ∀ w e', Signs (link r v o e) w e' ↔ (w = v ∧ e' = e) ∨ (w ≠ v ∧ Signs r w e') := by
    intro w e'
    show KV.get (KV.set r.eth v e) w = some e' ↔ _
    rw [KV.get_set]
    by_cases e1 : w = v
    · rw [if_pos e1]
      constructor
      · intro e2; cases e2; exact Or.inl ⟨e1, rfl⟩
      · rintro (⟨_, e2⟩ | ⟨e2, _⟩)
        · rw [e2]
        · exact absurd e1 e2
    · rw [if_neg e1]
      constructor
      · exact fun e2 => Or.inr ⟨e1, e2⟩
      · rintro (⟨e2, _⟩ | ⟨_, e2⟩)
        · exact absurd e2 e1
        · exact e2
  have hb : ∀ e' w, Answers (link r v o e) e' w ↔ (e' = e ∧ w = v) ∨ (e' ≠ e ∧ Answers r e' w) := by
    intro e' w
    show KV.get (KV.set r.byEth e v) e' = some w ↔ _
    rw [KV.get_set]
    by_cases e1 : e' = e
    · rw [if_pos e1]
      constructor
      · intro e2; cases e2; exact Or.inl ⟨e1, rfl⟩
      · rintro (⟨_, e2⟩ | ⟨e2, _⟩)
        · rw [e2]
        · exact absurd e1 e2
    · rw [if_neg e1]
      constructor
      · exact fun e2 => Or.inr ⟨e1, e2⟩
      · rintro (⟨e2, _⟩ | ⟨_, e2⟩)
        · exact absurd e2 e1
        · exact e2
  refine ⟨fun {o' w} hx => ?_, fun {w e'} hx => ?_, fun {o1 o2 w} hx hy => ?_, fun {w e'} => ?_⟩
  · rcases (ha o' w).1 hx with ⟨_, e2⟩ | ⟨_, e2⟩
    · exact ⟨e, (hs w e).2 (Or.inl ⟨e2, rfl⟩)⟩
    · obtain ⟨e', h3⟩ := h.acts_signs e2
      refine ⟨e', (hs w e').2 (Or.inr ⟨fun e3 => ?_, h3⟩)⟩
      subst e3
      exact hnone _ e2
  · rcases (hs w e').1 hx with ⟨e2, _⟩ | ⟨e1, e2⟩
    · exact ⟨o, (ha o w).2 (Or.inl ⟨rfl, e2⟩)⟩
    · obtain ⟨o', h3⟩ := h.signs_acts e2
      refine ⟨o', (ha o' w).2 (Or.inr ⟨fun e3 => ?_, h3⟩)⟩
      subst e3
      unfold Acts at h3
      rw [ho] at h3
      cases h3
  · rcases (ha o1 w).1 hx with ⟨e1, e2⟩ | ⟨e1, e2⟩ <;> rcases (ha o2 w).1 hy with ⟨e3, e4⟩ | ⟨e3, e4⟩
    · rw [e1, e3]
    · subst e2; exact absurd e4 (hnone _)
    · subst e4; exact absurd e2 (hnone _)
    · exact h.one e2 e4
  · rw [hs, hb]
    constructor
    · rintro (⟨e1, e2⟩ | ⟨e1, e2⟩)
      · exact Or.inl ⟨e2, e1⟩
      · exact Or.inr ⟨fun e3 => he w (e3 ▸ e2), h.answers.1 e2⟩
    · rintro (⟨e1, e2⟩ | ⟨e1, e2⟩)
      · exact Or.inl ⟨e2, e1⟩
      · refine Or.inr ⟨fun e3 => ?_, h.answers.2 e2⟩
        have := h.answers.2 e2
        unfold Signs at this
        rw [e3, hv] at this
        cases this

theorem sound_unset {r : Reg} (h : Sound r) {v e : Nat} (hv : Acts r v v) (he : Signs r v e) : Sound (unset r v e) := by
  have ha : ∀ o' w, Acts (unset r v e) o' w ↔ o' ≠ v ∧ Acts r o' w := by
    intro o' w
    show KV.get (KV.del r.orch v) o' = some w ↔ _
    rw [KV.get_del]
    by_cases e1 : o' = v
    · rw [if_pos e1]
      exact ⟨fun e2 => (nomatch e2), fun e2 => absurd e1 e2.1⟩
    · rw [if_neg e1]
      exact ⟨fun e2 => ⟨e1, e2⟩, fun e2 => e2.2⟩
  have hs : ∀ w e', Signs (unset r v e) w e' ↔ w ≠ v ∧ Signs r w e' := by
    intro w e'
    show KV.get (KV.del r.eth v) w = some e' ↔ _
    rw [KV.get_del]
    by_cases e1 : w = v
    · rw [if_pos e1]
      exact ⟨fun e2 => (nomatch e2), fun e2 => absurd e1 e2.1⟩
    · rw [if_neg e1]
      exact ⟨fun e2 => ⟨e1, e2⟩, fun e2 => e2.2⟩
  have hb : ∀ e' w, Answers (unset r v e) e' w ↔ e' ≠ e ∧ Answers r e' w := by
    intro e' w
    show KV.get (KV.del r.byEth e) e' = some w ↔ _
    rw [KV.get_del]
    by_cases e1 : e' = e
    · rw [if_pos e1]
      exact ⟨fun e2 => (nomatch e2), fun e2 => absurd e1 e2.1⟩
    · rw [if_neg e1]
      exact ⟨fun e2 => ⟨e1, e2⟩, fun e2 => e2.2⟩
  refine ⟨fun {o' w} hx => ?_, fun {w e'} hx => ?_, fun {o1 o2 w} hx hy => ?_, fun {w e'} => ?_⟩
  · obtain ⟨e1, e2⟩ := (ha o' w).1 hx
    obtain ⟨e', h3⟩ := h.acts_signs e2
    refine ⟨e', (hs w e').2 ⟨fun e3 => ?_, h3⟩⟩
    subst e3
    exact e1 (h.one e2 hv)
  · obtain ⟨e1, e2⟩ := (hs w e').1 hx
    obtain ⟨o', h3⟩ := h.signs_acts e2
    refine ⟨o', (ha o' w).2 ⟨fun e3 => ?_, h3⟩⟩
    subst e3
    unfold Acts at hv h3
    rw [hv] at h3
    cases h3
    exact e1 rfl
  · exact h.one ((ha o1 w).1 hx).2 ((ha o2 w).1 hy).2
  · rw [hs, hb]
    constructor
    · rintro ⟨e1, e2⟩
      refine ⟨fun e3 => ?_, h.answers.1 e2⟩
      subst e3
      have h1 := h.answers.1 e2
      have h2 := h.answers.1 he
      unfold Answers at h1 h2
      rw [h1] at h2
      cases h2
      exact e1 rfl
    · rintro ⟨e1, e2⟩
      refine ⟨fun e3 => ?_, h.answers.2 e2⟩
      subst e3
      have h1 := h.answers.2 e2
      unfold Signs at h1 he
      rw [h1] at he
      cases he
      exact e1 rfl

theorem sound_congr {r r' : Reg} (h : Sound r) (h1 : r'.orch = r.orch) (h2 : r'.eth = r.eth) (h3 : r'.byEth = r.byEth) : Sound r' := by
  cases r; cases r'
  cases h1; cases h2; cases h3
  exact ⟨h.acts_signs, h.signs_acts, h.one, h.answers⟩

theorem sound_step {r : Reg} (h : Sound r) (op : Op) (hc : Careful r [op]) : Sound (step r op) := by
  cases op with
  | register v o e =>
    show Sound (register r v o e)
    unfold register
    split
    · rename_i hm
      obtain ⟨_, h2, h3, _⟩ := mayRegister_iff.1 hm
      exact sound_congr (sound_link h h2 h3 hc.1) rfl rfl rfl
    · exact h
  | registerFee v o f b bond =>
    show Sound (registerFee r v o f b bond)
    unfold registerFee
    split
    · rename_i hm
      rw [Bool.and_eq_true] at hm
      obtain ⟨_, h2, h3, _⟩ := mayRegister_iff.1 hm.2
      exact sound_congr (sound_link h h2 h3 hc.1) rfl rfl rfl
    · exact h
  | updateFee v f b bond =>
    show Sound (updateFee r v f b bond)
    unfold updateFee
    split
    · exact sound_congr h rfl rfl rfl
    · exact h
  | deleteFee v => exact sound_congr h rfl rfl rfl
  | unset v e => exact sound_unset h hc.1.1 hc.1.2
  | setVal v b => exact sound_congr h rfl rfl rfl
  | setAllowed l => exact sound_congr h rfl rfl rfl

/-- What the loop over fees finds. -/
theorem lowLoop_spec (l : List (Nat × Nat)) (best : Int) (val : Option Nat) :
    (best = -1 → val = none → l = [] → lowLoop best val l = none) ∧
    (∀ w g, best = (g : Nat) → val = some w →
      ∃ v f, lowLoop best val l = some v ∧ f ≤ g ∧ ((v, f) = (w, g) ∨ (v, f) ∈ l) ∧ ∀ x ∈ l, f ≤ x.2) := by
  induction l generalizing best val with
  | nil => exact ⟨fun _ h _ => h, fun w g _ hv => ⟨w, g, hv, Nat.le_refl _, Or.inl rfl, fun x hx => nomatch hx⟩⟩
  | cons x l ih =>
    obtain ⟨v, f⟩ := x
    refine ⟨fun _ _ h => (nomatch h), fun w g hb hv => ?_⟩
    unfold lowLoop
    by_cases hc : best = -1 ∨ (f : Int) < best
    · rw [if_pos hc]
      have hfg : f ≤ g := by omega
      obtain ⟨v', f', h1, h2, h3, h4⟩ := (ih (f : Int) (some v)).2 v f rfl rfl
      refine ⟨v', f', h1, by omega, Or.inr ?_, fun x hx => ?_⟩
      · rcases h3 with e | e
        · rw [e]; exact List.mem_cons_self
        · exact List.mem_cons_of_mem _ e
      · rcases List.mem_cons.1 hx with e | e
        · rw [e]; exact h2
        · exact h4 x e
    · rw [if_neg hc]
      obtain ⟨v', f', h1, h2, h3, h4⟩ := (ih best val).2 w g hb hv
      refine ⟨v', f', h1, h2, ?_, fun x hx => ?_⟩
      · rcases h3 with e | e
        · exact Or.inl e
        · exact Or.inr (List.mem_cons_of_mem _ e)
      · rcases List.mem_cons.1 hx with e | e
        · rw [e]; show f' ≤ f; omega
        · exact h4 x e

theorem lowest_mem {r : Reg} : (r.fees = [] ∧ lowest r = none) ∨
    ∃ v f, lowest r = some v ∧ (v, f) ∈ r.fees ∧ ∀ x ∈ r.fees, f ≤ x.2 := by
  unfold lowest
  have hp := StableSort.sortBy_perm (fun a b : Nat × Nat => decide (a.1 ≤ b.1)) r.fees
  generalize StableSort.sortBy (fun a b : Nat × Nat => decide (a.1 ≤ b.1)) r.fees = l at hp
  cases l with
  | nil => exact Or.inl ⟨hp.symm.eq_nil, rfl⟩
  | cons x l =>
    obtain ⟨v, f⟩ := x
    right
    unfold lowLoop
    rw [if_pos (Or.inl rfl)]
    obtain ⟨v', f', h1, h2, h3, h4⟩ := (lowLoop_spec l (f : Int) (some v)).2 v f rfl rfl
    refine ⟨v', f', h1, hp.mem_iff.1 ?_, fun x hx => ?_⟩
    · rcases h3 with e | e
      · rw [e]; exact List.mem_cons_self
      · exact List.mem_cons_of_mem _ e
    · rcases List.mem_cons.1 (hp.mem_iff.2 hx) with e | e
      · rw [e]; exact h2
      · exact h4 x e

theorem orchOf_none {m : List (Nat × Nat)} {v : Nat} : orchOf m v = none ↔ ∀ x ∈ m, x.2 ≠ v := by
  unfold orchOf
  rw [List.max?_eq_none_iff, List.map_eq_nil_iff, List.filter_eq_nil_iff]
  constructor
  · intro h x hx e
    exact h x hx (decide_eq_true e)
  · intro h x hx e
    exact h x hx (of_decide_eq_true e)

theorem orchOf_some {m : List (Nat × Nat)} {v o : Nat} (h : orchOf m v = some o) : (o, v) ∈ m := by
  unfold orchOf at h
  have := List.max?_mem h
  obtain ⟨x, hx, e⟩ := List.mem_map.1 this
  obtain ⟨h1, h2⟩ := List.mem_filter.1 hx
  have h2 := of_decide_eq_true h2
  cases x
  cases e
  cases h2
  exact h1

theorem listing_none {orch l : List (Nat × Nat)} : listing orch l = none ↔ ∃ x ∈ l, orchOf orch x.1 = none := by
  induction l with
  | nil => exact ⟨fun h => (nomatch h), fun ⟨_, h, _⟩ => (nomatch h)⟩
  | cons x l ih =>
    obtain ⟨v, e⟩ := x
    unfold listing
    cases h1 : orchOf orch v with
    | none => exact ⟨fun _ => ⟨_, List.mem_cons_self, h1⟩, fun _ => rfl⟩
    | some o =>
      cases h2 : listing orch l with
      | none =>
        obtain ⟨y, hy, h3⟩ := ih.1 h2
        exact ⟨fun _ => ⟨y, List.mem_cons_of_mem _ hy, h3⟩, fun _ => rfl⟩
      | some es =>
        refine ⟨fun h => (nomatch h), fun ⟨y, hy, h3⟩ => ?_⟩
        rcases List.mem_cons.1 hy with e1 | e1
        · subst e1
          rw [h1] at h3
          cases h3
        · have := ih.2 ⟨y, e1, h3⟩
          rw [h2] at this
          cases this

theorem listing_mem {orch l : List (Nat × Nat)} {es : List Entry} (h : listing orch l = some es) (x : Entry) :
    x ∈ es ↔ x.hid = 0 ∧ (x.val, x.eth) ∈ l ∧ orchOf orch x.val = some x.orch := by
  induction l generalizing es with
  | nil =>
    cases h
    exact ⟨fun h => (nomatch h), fun h => (nomatch h.2.1)⟩
  | cons y l ih =>
    obtain ⟨v, e⟩ := y
    unfold listing at h
    cases h1 : orchOf orch v with
    | none => rw [h1] at h; cases h
    | some o =>
      cases h2 : listing orch l with
      | none => rw [h1, h2] at h; cases h
      | some es' =>
        rw [h1, h2] at h
        cases h
        rw [List.mem_cons, ih h2]
        constructor
        · rintro (e1 | ⟨e1, e2, e3⟩)
          · subst e1
            exact ⟨rfl, List.mem_cons_self, h1⟩
          · exact ⟨e1, List.mem_cons_of_mem _ e2, e3⟩
        · rintro ⟨e1, e2, e3⟩
          rcases List.mem_cons.1 e2 with e4 | e4
          · left
            obtain ⟨a, b, c, d⟩ := x
            dsimp only at e1 e3 e4
            cases e4
            rw [h1] at e3
            cases e3
            cases e1
            rfl
          · exact Or.inr ⟨e1, e4, e3⟩

theorem imported_none {h : Nat} (l : List Entry) (hl : ∀ x ∈ l, x.hid ≠ h) (r : Reg) : imported h l r = r := by
  induction l generalizing r with
  | nil => rfl
  | cons x l ih =>
    unfold imported
    rw [if_neg (hl x List.mem_cons_self)]
    exact ih (fun y hy => hl y (List.mem_cons_of_mem _ hy)) r

end Hyperion.Orch
