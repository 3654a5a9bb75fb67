import Verif.EVM.ForkOrderSpec
/-!
# Lemmas on the schedule of forks
-/

namespace ForkOrder

/-- `InOrder` for blocks of go-ethereum's configuration. -/
def Ord (e : Fork → Option Nat) (f g : Fork) : Prop :=
  ∀ b, e g = some b → (∀ a, e f = some a → a ≤ b) ∧ (optional f = false → e f ≠ none)

/-- What the loop knows of the forks before: `last` bounds all of them. -/
def After (last : Option (Option Nat)) (e : Fork → Option Nat) (g : Fork) : Prop :=
  ∀ l, last = some l → ∀ b, e g = some b → ∃ a, l = some a ∧ a ≤ b

theorem check_iff (e : Fork → Option Nat) (last : Option (Option Nat)) (fs : List Fork) :
    check e last fs = true ↔ (∀ g ∈ fs, After last e g) ∧ fs.Pairwise (Ord e) := by
  induction fs generalizing last with
  | nil => exact ⟨fun _ => ⟨fun g h => (by cases h), .nil⟩, fun _ => rfl⟩
  | cons f fs ih =>
    unfold check
    rw [Bool.and_eq_true, ih, List.pairwise_cons]
    have hfirst : against last (e f) = true ↔ After last e f := by
      unfold After against
      cases last with
      | none => exact ⟨fun _ l h => (by cases h), fun _ => rfl⟩
      | some l =>
        dsimp only
        unfold follows
        cases l with
        | none =>
          cases hf : e f with
          | none => exact ⟨fun _ _ _ b h => (by cases h), fun _ => rfl⟩
          | some b =>
            refine ⟨fun h => (by cases h), fun h => ?_⟩
            obtain ⟨a, h1, _⟩ := h none rfl b rfl
            cases h1
        | some a =>
          cases hf : e f with
          | none => exact ⟨fun _ _ _ b h => (by cases h), fun _ => rfl⟩
          | some b =>
            dsimp only
            rw [decide_eq_true_eq]
            constructor
            · intro h l hl b' hb
              injection hl with hl
              injection hb with hb
              subst hl hb
              exact ⟨a, rfl, h⟩
            · intro h
              obtain ⟨a', h1, h2⟩ := h _ rfl b rfl
              injection h1 with h1
              omega
    rw [hfirst]
    by_cases hs : (!optional f || (e f).isSome) = true
    · rw [if_pos hs]
      constructor
      · rintro ⟨h1, h2, h3⟩
        refine ⟨?_, ?_, h3⟩
        · intro g hg
          cases hg with
          | head => exact h1
          | tail _ hg =>
            intro l hl b hb
            obtain ⟨a, ha, hab⟩ := h2 g hg _ rfl b hb
            obtain ⟨a', ha', haa⟩ := h1 l hl a ha
            exact ⟨a', ha', Nat.le_trans haa hab⟩
        · intro g hg b hb
          obtain ⟨a, ha, hab⟩ := h2 g hg _ rfl b hb
          refine ⟨?_, fun _ hn => ?_⟩
          · intro a' ha'
            rw [ha] at ha'
            injection ha' with ha'
            omega
          · rw [ha] at hn
            cases hn
      · rintro ⟨h1, h2, h3⟩
        refine ⟨h1 f List.mem_cons_self, ?_, h3⟩
        intro g hg l hl b hb
        injection hl with hl
        obtain ⟨o1, o2⟩ := h2 g hg b hb
        cases hf : e f with
        | some a => exact ⟨a, by rw [← hl, hf], o1 a hf⟩
        | none =>
          rw [hf] at hs
          have : optional f = false := by
            cases ho : optional f with
            | false => rfl
            | true => rw [ho] at hs; cases hs
          exact absurd hf (o2 this)
    · rw [if_neg hs]
      have hf : e f = none := by
        cases hf : e f with
        | none => rfl
        | some a =>
          rw [hf] at hs
          exact absurd (by simp) hs
      have ho : optional f = true := by
        cases ho : optional f with
        | true => rfl
        | false =>
          rw [ho] at hs
          exact absurd rfl hs
      constructor
      · rintro ⟨h1, h2, h3⟩
        refine ⟨?_, ?_, h3⟩
        · intro g hg
          cases hg with
          | head => exact h1
          | tail _ hg => exact h2 g hg
        · intro g _ b _
          refine ⟨fun a ha => ?_, fun hx => ?_⟩
          · rw [hf] at ha
            cases ha
          · rw [ho] at hx
            cases hx
      · rintro ⟨h1, _, h3⟩
        exact ⟨h1 f List.mem_cons_self, fun g hg => h1 g (List.mem_cons_of_mem _ hg), h3⟩

theorem mem_order (f : Fork) : f ∈ order := by
  cases f <;> decide

theorem order_ranked : order.Pairwise fun f g => rank f < rank g := by decide

theorem pairwise_order {R : Fork → Fork → Prop} : order.Pairwise R ↔ ∀ f g, rank f < rank g → R f g := by
  constructor
  · intro h f g hr
    have key : ∀ l : List Fork, l.Pairwise R → l.Pairwise (fun f g => rank f < rank g) → f ∈ l → g ∈ l → R f g := by
      intro l
      induction l with
      | nil => intro _ _ hf; cases hf
      | cons x xs ih =>
        intro h1 h2 hf hg
        rw [List.pairwise_cons] at h1 h2
        cases hf with
        | head =>
          cases hg with
          | head => omega
          | tail _ hg => exact h1.1 g hg
        | tail _ hf =>
          cases hg with
          | head =>
            have := h2.1 f hf
            omega
          | tail _ hg => exact ih h1.2 h2.2 hf hg
    exact key order h order_ranked (mem_order f) (mem_order g)
  · intro h
    exact order_ranked.imp fun {f g} hr => h f g hr

theorem blockValue_of_nonneg {b : Option Int} (h : ∀ x, b = some x → 0 ≤ x) : blockValue b = b.map Int.toNat := by
  unfold blockValue
  cases b with
  | none => rfl
  | some x =>
    have := h x rfl
    dsimp only
    rw [if_neg (by omega)]
    rfl

end ForkOrder
