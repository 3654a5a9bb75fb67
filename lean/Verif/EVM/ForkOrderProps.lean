import Verif.EVM.ForkOrderLemmas
/-!
# Properties of the schedule of forks (C116)
-/

namespace ForkOrder

/-- **Valid schedules are those in order**: no negative block, no blank hash, and of any two forks the earlier one not
after the later one, nor missing where it must not be. -/
theorem valid_iff (space : Nat → Bool) (c : Config) :
    validate space c = true ↔ (∀ f b, c.block f = some b → 0 ≤ b) ∧ ¬ Blank space c.hash ∧
      ∀ f g, rank f < rank g → InOrder c.block f g := by
  have hb : order.all (fun f => validateBlock (c.block f)) = true ↔ ∀ f b, c.block f = some b → 0 ≤ b := by
    rw [List.all_eq_true]
    constructor
    · intro h f b hf
      have := h f (mem_order f)
      rw [hf] at this
      simp only [validateBlock, Bool.not_eq_true', decide_eq_false_iff_not] at this
      omega
    · intro h f _
      cases hf : c.block f with
      | none => rfl
      | some b =>
        have := h f b hf
        simp only [validateBlock, Bool.not_eq_true', decide_eq_false_iff_not]
        omega
  have hh : validateHash space c.hash = true ↔ ¬ Blank space c.hash := by
    unfold validateHash Blank
    rw [Bool.not_eq_true', ← Bool.not_eq_true, Bool.and_eq_true, List.all_eq_true]
    cases c.hash <;> simp
  unfold validate
  rw [Bool.and_eq_true, Bool.and_eq_true, hb, hh, and_assoc]
  refine and_congr_right fun hn => and_congr_right fun _ => ?_
  rw [check_iff, pairwise_order]
  have he : ∀ f, (toEth c none).2 f = (c.block f).map Int.toNat := fun f => blockValue_of_nonneg (hn f)
  constructor
  · rintro ⟨_, h⟩ f g hr b hg
    obtain ⟨h1, h2⟩ := h f g hr b.toNat (by rw [he, hg]; rfl)
    have hb0 := hn g b hg
    refine ⟨fun a ha => ?_, fun ho hx => h2 ho (by rw [he, hx]; rfl)⟩
    have := h1 a.toNat (by rw [he, ha]; rfl)
    have := hn f a ha
    omega
  · intro h
    refine ⟨fun g _ l hl => (by cases hl), ?_⟩
    intro f g hr b hg
    rw [he] at hg
    cases hg' : c.block g with
    | none => rw [hg'] at hg; cases hg
    | some b' =>
      rw [hg'] at hg
      injection hg with hg
      obtain ⟨h1, h2⟩ := h f g hr b' hg'
      refine ⟨fun a ha => ?_, fun ho hx => h2 ho ?_⟩
      · rw [he] at ha
        cases hf' : c.block f with
        | none => rw [hf'] at ha; cases ha
        | some a' =>
          rw [hf'] at ha
          injection ha with ha
          have := h1 a' hf'
          have := hn f a' hf'
          omega
      · rw [he] at hx
        cases hf' : c.block f with
        | none => rfl
        | some a' => rw [hf'] at hx; cases hx

/-- **Rules only grow**: under a valid schedule, at a height at which a fork is active all earlier ones are that may not
be left out, and those that may, if they have a block at all. -/
theorem earlier_forks_active {space : Nat → Bool} {c : Config} (h : validate space c = true) (id : Option Nat) {f g : Fork}
    (hr : rank f < rank g) {height : Nat} (hg : active (toEth c id).2 g height = true)
    (hf : optional f = false ∨ c.block f ≠ none) : active (toEth c id).2 f height = true := by
  obtain ⟨hn, _, ho⟩ := (valid_iff space c).1 h
  have he : ∀ f, (toEth c id).2 f = (c.block f).map Int.toNat := fun f => blockValue_of_nonneg (hn f)
  unfold active at hg ⊢
  rw [he] at hg ⊢
  cases hg' : c.block g with
  | none => rw [hg'] at hg; cases hg
  | some b =>
    rw [hg'] at hg
    have hb : b.toNat ≤ height := of_decide_eq_true hg
    obtain ⟨h1, h2⟩ := ho f g hr b hg'
    cases hf' : c.block f with
    | none =>
      cases hf with
      | inl x => exact absurd hf' (h2 x)
      | inr x => exact absurd hf' x
    | some a =>
      have := h1 a hf'
      exact decide_eq_true (show a.toNat ≤ height by omega)

/-- Forks stay active, and without a block never are. -/
theorem stays_active (e : Fork → Option Nat) (f : Fork) {h h' : Nat} (hl : h ≤ h') (ha : active e f h = true) :
    active e f h' = true := by
  unfold active at ha ⊢
  cases hf : e f with
  | none => rw [hf] at ha; cases ha
  | some b =>
    rw [hf] at ha
    have : b ≤ h := of_decide_eq_true ha
    exact decide_eq_true (show b ≤ h' by omega)

/-- A fork of a valid schedule is active exactly from its block on. -/
theorem active_iff {space : Nat → Bool} {c : Config} (h : validate space c = true) (id : Option Nat) (f : Fork)
    (height : Nat) : active (toEth c id).2 f height = true ↔ ∃ b : Int, c.block f = some b ∧ b ≤ height := by
  obtain ⟨hn, _⟩ := (valid_iff space c).1 h
  have he : (toEth c id).2 f = (c.block f).map Int.toNat := blockValue_of_nonneg (hn f)
  unfold active
  rw [he]
  cases hf : c.block f with
  | none => exact ⟨fun x => (by cases x), fun ⟨_, x, _⟩ => (by cases x)⟩
  | some b =>
    have := hn f b hf
    show decide (b.toNat ≤ height) = true ↔ _
    rw [decide_eq_true_eq]
    constructor
    · intro hb
      exact ⟨b, rfl, by omega⟩
    · rintro ⟨b', hb, hle⟩
      injection hb with hb
      omega

/-- The chain's number is the one given, if any. -/
theorem chain_number (c : Config) : (∀ n, (toEth c (some n)).1 = n) ∧ (toEth c none).1 = c.chainId := ⟨fun _ => rfl, rfl⟩

/-- **The schedule is set once**: the first valid one stays, whatever is set later; invalid ones change nothing. -/
theorem set_once (space : Nat → Bool) :
    (∀ c new, set space (some c) new = (some c, false)) ∧
    (∀ c, validate space c = true → set space none (some c) = (some c, true)) ∧
    (∀ c, validate space c = false → set space none (some c) = (none, false)) := by
  refine ⟨fun _ _ => rfl, fun c h => ?_, fun c h => ?_⟩
  · unfold set
    dsimp only [Option.getD]
    rw [if_pos h]
  · unfold set
    dsimp only [Option.getD]
    rw [h]
    rfl

/-- Without a schedule the default is set: all forks are active from block 0 on. -/
theorem default_set {space : Nat → Bool} (hs : space 48 = false) :
    set space none none = (some (default 1234), true) ∧
      ∀ id f height, active (toEth (default 1234) id).2 f height = true := by
  have hv : validate space (default 1234) = true := by
    rw [valid_iff]
    refine ⟨fun f b h => ?_, fun ⟨_, h⟩ => ?_, ?_⟩
    · injection h with h
      omega
    · have := h 48 List.mem_cons_self
      rw [hs] at this
      cases this
    · intro f g _ b hb
      injection hb with hb
      refine ⟨fun a ha => ?_, fun _ hx => (by cases hx)⟩
      injection ha with ha
      omega
  refine ⟨?_, fun id f height => (active_iff hv id f height).2 ⟨0, rfl, by omega⟩⟩
  unfold set
  dsimp only [Option.getD]
  rw [if_pos hv]

/-- **The hash is hardly checked**: every text with a character that is no space passes. -/
theorem hash_hardly_checked {space : Nat → Bool} {c : Config} (h : validate space c = true) {x : List Nat} {ch : Nat}
    (hx : ch ∈ x) (hs : space ch = false) : validate space { c with hash := x } = true := by
  obtain ⟨h1, _, h3⟩ := (valid_iff space c).1 h
  refine (valid_iff space _).2 ⟨h1, fun hb => ?_, h3⟩
  have := hb.2 ch hx
  rw [hs] at this
  cases this

/-! ## The hypotheses are met -/

/-- London at 10, Shanghai at 20, Cancun not yet, no DAO fork. -/
def sample : Config :=
  { block := fun f =>
      match f with
      | .dao => none
      | .cancun => none
      | .shanghai => some 20
      | .london | .arrowGlacier | .grayGlacier | .mergeNetsplit => some 10
      | _ => some 0
    hash := [], chainId := 42000 }

theorem sample_valid : validate (fun c => c == 32) sample = true := by decide +kernel

example : active (toEth sample none).2 .shanghai 25 = true ∧ active (toEth sample none).2 .london 25 = true :=
  ⟨by decide +kernel, earlier_forks_active sample_valid none (g := .shanghai) (by decide) (by decide +kernel) (Or.inl rfl)⟩

example : active (toEth sample none).2 .cancun 1000 = false := by decide +kernel

/-- Berlin after London, and Istanbul missing: refused. -/
example : validate (fun c => c == 32) { sample with block := fun f => if f = .berlin then some 11 else sample.block f } = false ∧
    validate (fun c => c == 32) { sample with block := fun f => if f = .istanbul then none else sample.block f } = false := by
  decide +kernel

example : set (fun c => c == 32) none (some sample) = (some sample, true) := (set_once _).2.1 _ sample_valid

end ForkOrder
