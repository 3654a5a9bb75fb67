import Verif.Hyperion.Keys
/-!
# Lemmas about ranges of byte strings
-/
namespace Hyperion
open Bytes

theorem blt_nil (a : Str) : blt a [] = false := by cases a <;> rfl

theorem blt_cons (x y : UInt8) (a b : Str) : blt (x :: a) (y :: b) = (decide (x < y) || (decide (x = y) && blt a b)) := rfl

theorem u8_lt {x y : UInt8} : x < y ↔ x.toNat < y.toNat := UInt8.lt_iff_toNat_lt

theorem u8_eq {x y : UInt8} : x = y ↔ x.toNat = y.toNat := UInt8.toNat_inj.symm

theorem u8_succ (x : UInt8) : (x + 1).toNat = if x.toNat = 255 then 0 else x.toNat + 1 := by
  have := x.toNat_lt
  rw [UInt8.toNat_add]
  split <;> simp <;> omega

theorem u8_succ_zero {x : UInt8} : x + 1 = 0 ↔ x.toNat = 255 := by
  rw [u8_eq, u8_succ]
  split <;> simp_all

theorem blt_cons_iff {x y : UInt8} {a b : Str} :
    blt (x :: a) (y :: b) = true ↔ x.toNat < y.toNat ∨ (x.toNat = y.toNat ∧ blt a b = true) := by
  rw [blt_cons, Bool.or_eq_true, Bool.and_eq_true, decide_eq_true_iff, decide_eq_true_iff, u8_lt, u8_eq]

theorem blt_append (p a b : Str) : blt (p ++ a) (p ++ b) = blt a b := by
  induction p with
  | nil => rfl
  | cons x p ih => simp [blt_cons, ih]

theorem blt_mono {k q s : Str} (h : blt k q = true) : blt k (q ++ s) = true := by
  induction q generalizing k with
  | nil => simp [blt_nil] at h
  | cons x q ih =>
    cases k with
    | nil => rfl
    | cons y k =>
      rw [List.cons_append, blt_cons_iff]
      rw [blt_cons_iff] at h
      rcases h with h | ⟨h1, h2⟩
      · exact Or.inl h
      · exact Or.inr ⟨h1, ih h2⟩

/-- Strings of equal length decide before what follows. -/
theorem blt_append_of_length {a b x y : Str} (h : a.length = b.length) :
    blt (a ++ x) (b ++ y) = true ↔ blt a b = true ∨ (a = b ∧ blt x y = true) := by
  induction a generalizing b with
  | nil =>
    cases b with
    | nil => simp [blt_nil]
    | cons z b => simp at h
  | cons w a ih =>
    cases b with
    | nil => simp at h
    | cons z b =>
      simp only [List.length_cons, Nat.add_right_cancel_iff] at h
      rw [List.cons_append, List.cons_append, blt_cons_iff, blt_cons_iff, ih h, List.cons.injEq, u8_eq]
      constructor
      · rintro (h | ⟨h1, h2 | ⟨h2, h3⟩⟩)
        · exact Or.inl (Or.inl h)
        · exact Or.inl (Or.inr ⟨h1, h2⟩)
        · exact Or.inr ⟨⟨h1, h2⟩, h3⟩
      · rintro ((h | ⟨h1, h2⟩) | ⟨⟨h1, h2⟩, h3⟩)
        · exact Or.inl h
        · exact Or.inr ⟨h1, Or.inl h2⟩
        · exact Or.inr ⟨h1, Or.inr ⟨h2, h3⟩⟩

theorem be_succ (w n : Nat) : be (w + 1) n = be w (n / 256) ++ [UInt8.ofNat (n % 256)] := by
  simp [be, le]

/-- Big-endian numbers are ordered like the numbers. -/
theorem blt_be {w m n : Nat} (hm : m < 256 ^ w) (hn : n < 256 ^ w) : blt (be w m) (be w n) = true ↔ m < n := by
  induction w generalizing m n with
  | zero =>
    simp at hm hn
    subst hm hn
    simp [be, le, blt_nil]
  | succ w ih =>
    have h1 : m / 256 < 256 ^ w := by rw [Nat.div_lt_iff_lt_mul (by decide)]; rw [Nat.pow_succ] at hm; exact hm
    have h2 : n / 256 < 256 ^ w := by rw [Nat.div_lt_iff_lt_mul (by decide)]; rw [Nat.pow_succ] at hn; exact hn
    rw [be_succ, be_succ, blt_append_of_length (by simp), ih h1 h2, blt_cons_iff]
    have e : (be w (m / 256) = be w (n / 256)) ↔ m / 256 = n / 256 :=
      ⟨fun h => be_inj h1 h2 h, fun h => by rw [h]⟩
    rw [e]
    simp [blt_nil]
    omega

/-! ## Ends of prefixes -/

/-- `prefixEndRev` from the front. -/
def pe : Str → Option Str
  | [] => none
  | x :: xs =>
    match pe xs with
    | some e => some (x :: e)
    | none => if x = 255 then none else some [x + 1]

theorem prefixEndRev_append (a b : Str) :
    prefixEndRev (a ++ b) = (match prefixEndRev a with
      | some e => some (e ++ b)
      | none => prefixEndRev b) := by
  induction a with
  | nil => rfl
  | cons x a ih =>
    simp only [List.cons_append, prefixEndRev]
    split
    · rw [ih]
    · rfl

theorem prefixEnd_pe (p : Str) : (prefixEndRev p.reverse).map List.reverse = pe p := by
  induction p with
  | nil => rfl
  | cons x p ih =>
    rw [List.reverse_cons, prefixEndRev_append, pe, ← ih]
    cases h : prefixEndRev p.reverse with
    | some e => simp
    | none =>
      simp only [Option.map_none, prefixEndRev]
      split <;> simp

theorem inRange_iff {r : Str × Option Str} {k : Str} :
    inRange r k = true ↔ blt k r.1 = false ∧ ∀ e, r.2 = some e → blt k e = true := by
  unfold inRange
  cases h : r.2 <;> simp

/-- The range of a prefix store is the set of keys with the prefix. -/
theorem pe_iff {p k : Str} : (blt k p = false ∧ ∀ e, pe p = some e → blt k e = true) ↔ p <+: k := by
  induction p generalizing k with
  | nil => simp [blt_nil, pe]
  | cons x p ih =>
    cases k with
    | nil => simp [blt]
    | cons y k =>
      rw [List.cons_prefix_cons, ← ih, Bool.eq_false_iff, ne_eq, blt_cons_iff, u8_eq]
      have hy := y.toNat_lt
      have hx := x.toNat_lt
      rcases Nat.lt_trichotomy y.toNat x.toNat with h | h | h
      · constructor
        · rintro ⟨h1, _⟩
          exact absurd (Or.inl h) h1
        · rintro ⟨h1, _⟩
          omega
      · constructor
        · rintro ⟨h1, h2⟩
          refine ⟨h.symm, ?_, ?_⟩
          · rw [Bool.eq_false_iff]
            exact fun hc => h1 (Or.inr ⟨h, hc⟩)
          · intro e he
            have := h2 (x :: e) (by simp [pe, he])
            rw [blt_cons_iff] at this
            rcases this with h3 | ⟨_, h3⟩
            · omega
            · exact h3
        · rintro ⟨_, h1, h2⟩
          rw [Bool.eq_false_iff] at h1
          refine ⟨?_, ?_⟩
          · rintro (h3 | ⟨_, h3⟩)
            · omega
            · exact h1 h3
          · intro e he
            rw [pe] at he
            cases hp : pe p with
            | some e' =>
              rw [hp] at he
              cases he
              rw [blt_cons_iff]
              exact Or.inr ⟨h, h2 e' hp⟩
            | none =>
              rw [hp] at he
              dsimp only at he
              split at he
              · cases he
              next hx255 =>
                cases he
                rw [blt_cons_iff, u8_succ]
                left
                rw [u8_eq] at hx255
                rw [if_neg (by simpa using hx255)]
                omega
      · constructor
        · rintro ⟨_, h2⟩
          exfalso
          cases hp : pe p with
          | some e' =>
            have := h2 (x :: e') (by simp [pe, hp])
            rw [blt_cons_iff] at this
            omega
          | none =>
            by_cases hx255 : x = 255
            · subst hx255
              simp at h
              omega
            · have := h2 [x + 1] (by simp [pe, hp, hx255])
              rw [blt_cons_iff, u8_succ] at this
              rw [u8_eq] at hx255
              rw [if_neg (by simpa using hx255)] at this
              simp only [blt_nil] at this
              rcases this with h3 | ⟨_, h3⟩
              · omega
              · cases h3
        · rintro ⟨h1, _⟩
          omega

theorem prefixStoreRange_iff {p k : Str} : inRange (prefixStoreRange p) k = true ↔ p <+: k := by
  rw [inRange_iff, ← pe_iff]
  unfold prefixStoreRange
  rw [prefixEnd_pe]

/-! ## `PrefixRange` -/

/-- `carry` from the front. -/
def cf : Str → Str × Bool
  | [] => ([], true)
  | x :: xs => if (cf xs).2 then ((x + 1) :: (cf xs).1, decide (x.toNat = 255)) else (x :: (cf xs).1, false)

theorem carry_append (a b : Str) :
    carry (a ++ b) = if (carry a).2 then ((carry a).1 ++ (carry b).1, (carry b).2) else ((carry a).1 ++ b, false) := by
  induction a with
  | nil => simp [carry]
  | cons x a ih =>
    simp only [List.cons_append, carry]
    split
    · rw [ih]
      split <;> simp
    · simp

theorem carry_cf (p : Str) : ((carry p.reverse).1.reverse, (carry p.reverse).2) = cf p := by
  induction p with
  | nil => rfl
  | cons x p ih =>
    rw [List.reverse_cons, carry_append, cf, ← ih]
    simp only
    split
    · by_cases h : x.toNat = 255
      · have h0 := u8_succ_zero.2 h
        simp [carry, h0, h]
      · have h0 : ¬ x + 1 = 0 := fun hc => h (u8_succ_zero.1 hc)
        simp [carry, h0, h]
    · simp

/-- After an overflow only zeros are left, and nothing at least as long is below them. -/
theorem cf_overflow {p k : Str} (h : (cf p).2 = true) (hl : p.length ≤ k.length) : blt k (cf p).1 = false := by
  induction p generalizing k with
  | nil => simp [cf, blt_nil]
  | cons x p ih =>
    cases k with
    | nil => simp at hl
    | cons y k =>
      simp only [cf] at h ⊢
      split at h
      next h1 =>
        rw [if_pos h1, Bool.eq_false_iff, ne_eq, blt_cons_iff, u8_succ, if_pos (of_decide_eq_true h)]
        simp only [Nat.not_lt_zero, false_or, not_and, Bool.not_eq_true]
        exact fun _ => ih h1 (by simpa using hl)
      · cases h

theorem cf_iff {p k : Str} (hl : p.length ≤ k.length) :
    (blt k p = false ∧ ((cf p).2 = false → blt k (cf p).1 = true)) ↔ p <+: k := by
  induction p generalizing k with
  | nil => simp [blt_nil, cf]
  | cons x p ih =>
    cases k with
    | nil => simp at hl
    | cons y k =>
      have hl' : p.length ≤ k.length := by simpa using hl
      rw [List.cons_prefix_cons, ← ih hl', Bool.eq_false_iff, ne_eq, blt_cons_iff, u8_eq, cf]
      have hy := y.toNat_lt
      have hx := x.toNat_lt
      cases hf : (cf p).2 with
      | true =>
        have ho := cf_overflow hf hl'
        have hxk : blt (y :: k) ((x + 1) :: (cf p).1) = true ↔ y.toNat < (x + 1).toNat := by
          rw [blt_cons_iff, ho]
          simp
        simp only [↓reduceIte, decide_eq_false_iff_not, hxk, u8_succ]
        by_cases h255 : x.toNat = 255
        · simp [h255]
          constructor
          · rintro ⟨h1, h2⟩
            have : y.toNat = 255 := by omega
            exact ⟨this.symm, h2 this⟩
          · rintro ⟨h1, h2⟩
            exact ⟨by omega, fun _ => h2⟩
        · simp [h255]
          constructor
          · rintro ⟨⟨h1, h2⟩, h3⟩
            have : y.toNat = x.toNat := by omega
            exact ⟨this.symm, h2 this⟩
          · rintro ⟨h1, h2⟩
            exact ⟨⟨by omega, fun _ => h2⟩, by omega⟩
      | false =>
        simp only [Bool.false_eq_true, ↓reduceIte, blt_cons_iff, Bool.eq_false_iff, forall_const]
        constructor
        · rintro ⟨h1, h2⟩
          have h3 : y.toNat = x.toNat := by
            rcases h2 with h2 | ⟨h2, _⟩
            · exact absurd (Or.inl h2) h1
            · exact h2
          refine ⟨h3.symm, fun hc => h1 (Or.inr ⟨h3, hc⟩), ?_⟩
          rcases h2 with h2 | ⟨_, h2⟩
          · omega
          · exact h2
        · rintro ⟨h1, h2, h3⟩
          refine ⟨?_, Or.inr ⟨h1.symm, h3⟩⟩
          rintro (h4 | ⟨_, h4⟩)
          · omega
          · exact h2 h4

theorem prefixRange_snd (p : Str) (hp : p ≠ []) : prefixRange p = (p, if (cf p).2 then none else some (cf p).1) := by
  unfold prefixRange
  rw [if_neg hp, ← carry_cf]

theorem prefixRange_prefix {p k : Str} (hp : p ≠ []) (hl : p.length ≤ k.length) :
    inRange (prefixRange p) k = true ↔ p <+: k := by
  rw [inRange_iff, prefixRange_snd p hp, ← cf_iff hl]
  cases (cf p).2 <;> simp

theorem prefix_of_between {k q s e : Str} (h1 : blt k (q ++ s) = false) (h2 : blt k (q ++ e) = true) : q <+: k := by
  induction q generalizing k with
  | nil => simp
  | cons x q ih =>
    cases k with
    | nil => simp [blt] at h1
    | cons y k =>
      rw [List.cons_append, Bool.eq_false_iff, ne_eq, blt_cons_iff] at h1
      rw [List.cons_append, blt_cons_iff] at h2
      have hxy : y.toNat = x.toNat := by
        rcases h2 with h2 | ⟨h2, _⟩
        · exact absurd (Or.inl h2) h1
        · exact h2
      rw [List.cons_prefix_cons, u8_eq]
      refine ⟨hxy.symm, ih ?_ ?_⟩
      · rw [Bool.eq_false_iff]
        exact fun hc => h1 (Or.inr ⟨hxy, hc⟩)
      · rcases h2 with h2 | ⟨_, h2⟩
        · omega
        · exact h2

/-- Iterating a prefix store visits the keys with the prefix whose rest is in the inner range. -/
theorem under_iff {q : Str} {r : Str × Option Str} {k : Str} :
    inRange (under q r) k = true ↔ ∃ k', k = q ++ k' ∧ inRange r k' = true := by
  rw [inRange_iff]
  unfold under
  cases hr : r.2 with
  | some e =>
    simp only [Option.some.injEq, forall_eq']
    constructor
    · rintro ⟨h1, h2⟩
      obtain ⟨k', rfl⟩ := prefix_of_between h1 h2
      refine ⟨k', rfl, ?_⟩
      rw [blt_append] at h1 h2
      rw [inRange_iff, hr]
      exact ⟨h1, by simpa using h2⟩
    · rintro ⟨k', rfl, h⟩
      rw [inRange_iff, hr] at h
      rw [blt_append, blt_append]
      exact ⟨h.1, h.2 e rfl⟩
  | none =>
    simp only
    constructor
    · rintro ⟨h1, h2⟩
      have hq : q <+: k := by
        rw [← prefixStoreRange_iff, inRange_iff]
        refine ⟨?_, h2⟩
        rw [Bool.eq_false_iff]
        intro hc
        have := blt_mono (s := r.1) hc
        rw [show (prefixStoreRange q).1 = q from rfl, h1] at this
        cases this
      obtain ⟨k', rfl⟩ := hq
      refine ⟨k', rfl, ?_⟩
      rw [blt_append] at h1
      rw [inRange_iff, hr]
      exact ⟨h1, by simp⟩
    · rintro ⟨k', rfl, h⟩
      rw [inRange_iff, hr] at h
      rw [blt_append]
      refine ⟨h.1, ?_⟩
      have := (inRange_iff.1 (prefixStoreRange_iff.2 (List.prefix_append q k'))).2
      exact this

theorem under_prefixRange {q p k : Str} (hp : p ≠ []) (hl : (q ++ p).length ≤ k.length) :
    inRange (under q (prefixRange p)) k = true ↔ q ++ p <+: k := by
  rw [under_iff]
  constructor
  · rintro ⟨k', rfl, h⟩
    rw [prefixRange_prefix hp (by simpa using hl)] at h
    exact (List.prefix_append_right_inj q).2 h
  · intro h
    obtain ⟨t, rfl⟩ := h
    refine ⟨p ++ t, by simp, ?_⟩
    rw [prefixRange_prefix hp (by simp)]
    exact List.prefix_append _ _

theorem append_prefix_iff {a b c d : Str} (h : a.length = b.length) : a ++ c <+: b ++ d ↔ a = b ∧ c <+: d := by
  constructor
  · rintro ⟨t, ht⟩
    rw [List.append_assoc] at ht
    obtain ⟨h1, h2⟩ := List.append_inj ht h
    exact ⟨h1, t, h2⟩
  · rintro ⟨rfl, h'⟩
    exact (List.prefix_append_right_inj a).2 h'

end Hyperion
