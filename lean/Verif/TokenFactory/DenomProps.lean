import Verif.TokenFactory.Denom
/-!
# Denominations identify creator and subdenom (C37)
-/
namespace TokenFactory

theorem split_ne_nil (s : Str) : split s ≠ [] := by
  cases s with
  | nil => exact fun h => by cases h
  | cons c cs =>
    unfold split
    split
    · exact fun h => by cases h
    · split <;> exact fun h => by cases h

theorem join_split (s : Str) : join (split s) = s := by
  induction s with
  | nil => rfl
  | cons c cs ih =>
    unfold split
    split
    · rename_i hc
      subst hc
      cases hs : split cs with
      | nil => exact absurd hs (split_ne_nil cs)
      | cons p ps =>
        rw [hs] at ih
        show [] ++ '/' :: join (p :: ps) = _
        rw [ih]
        rfl
    · cases hs : split cs with
      | nil => exact absurd hs (split_ne_nil cs)
      | cons p ps =>
        rw [hs] at ih
        dsimp only
        cases ps with
        | nil => rw [← ih]; rfl
        | cons q ps => rw [← ih]; rfl

theorem split_append {p : Str} (hp : '/' ∉ p) (s : Str) : split (p ++ '/' :: s) = p :: split s := by
  induction p with
  | nil => rfl
  | cons c cs ih =>
    have hc : c ≠ '/' := fun h => hp (h ▸ List.mem_cons_self)
    have := ih (fun h => hp (List.mem_cons_of_mem _ h))
    show (if c = '/' then _ else _) = _
    rw [if_neg hc, List.append_eq, this]

theorem factory_no_slash : '/' ∉ factory := by decide

/-- What a successful construction says. -/
theorem getTokenDenom_some {k : Codec} {c s d : Str} (h : getTokenDenom k c s = some d) :
    ∃ a, k.decode c = some a ∧ d = factory ++ '/' :: (k.encode a ++ '/' :: s) ∧ validateDenom d = true ∧
      s ≠ [] ∧ (split s).any (fun p => decide (p.length < 1)) = false := by
  unfold getTokenDenom at h
  split at h
  · cases h
  split at h
  · cases h
  rename_i hl
  split at h
  · cases h
  rename_i hp
  split at h
  · cases h
  split at h
  · cases h
  split at h
  · cases h
  · rename_i a ha
    dsimp only at h
    split at h
    · rename_i hv
      cases h
      refine ⟨a, ha, rfl, hv, ?_, Bool.not_eq_true _ ▸ hp⟩
      rintro rfl
      exact hl (Nat.zero_lt_one)
    · cases h

theorem split_denom (k : Codec) (a : Nat) (s : Str) :
    split (factory ++ '/' :: (k.encode a ++ '/' :: s)) = factory :: k.encode a :: split s := by
  rw [split_append factory_no_slash, split_append (k.no_slash a)]

/-- Deconstructing a constructed denomination gives back the account that created it, in its canonical spelling, and the
subdenom, whatever separators the subdenom contains. -/
theorem deconstruct_construct {k : Codec} {c s d : Str} (h : getTokenDenom k c s = some d) :
    ∃ a, k.decode c = some a ∧ deconstruct k d = some (k.encode a, s) := by
  obtain ⟨a, ha, rfl, hv, hs, hp⟩ := getTokenDenom_some h
  refine ⟨a, ha, ?_⟩
  unfold deconstruct
  rw [if_pos hv, split_denom]
  have hj := join_split s
  cases hs : split s with
  | nil => exact absurd hs (split_ne_nil s)
  | cons p ps =>
    rw [hs] at hj hp
    dsimp only
    rw [if_pos rfl, k.decode_encode]
    dsimp only
    have hp1 : ¬ p.length < 1 := by
      intro hx
      rw [List.any_cons, decide_eq_true hx] at hp
      cases hp
    rw [if_neg hp1, if_neg (by rw [hp]; exact Bool.false_ne_true), hj]

/-- Two constructions give the same denomination only for the same account and the same subdenom. -/
theorem construct_injective {k : Codec} {c s c' s' d : Str} (h : getTokenDenom k c s = some d)
    (h' : getTokenDenom k c' s' = some d) : k.decode c = k.decode c' ∧ s = s' := by
  obtain ⟨a, ha, h1⟩ := deconstruct_construct h
  obtain ⟨b, hb, h2⟩ := deconstruct_construct h'
  rw [h1] at h2
  have h2 : (k.encode a, s) = (k.encode b, s') := Option.some.inj h2
  have he : k.encode a = k.encode b := congrArg Prod.fst h2
  have hab : a = b := by
    have := k.decode_encode a
    rw [he, k.decode_encode b] at this
    exact (Option.some.inj this).symm
  exact ⟨by rw [ha, hb, hab], congrArg Prod.snd h2⟩

/-- For the same account and subdenom, the denomination does not depend on how the account is spelled. -/
theorem construct_same {k : Codec} {c s c' d d' : Str} (h : getTokenDenom k c s = some d)
    (h' : getTokenDenom k c' s = some d') (hc : k.decode c = k.decode c') : d = d' := by
  obtain ⟨a, ha, h1, _⟩ := getTokenDenom_some h
  obtain ⟨b, hb, h2, _⟩ := getTokenDenom_some h'
  rw [ha, hb] at hc
  cases hc
  rw [h1, h2]

/-- Every constructed denomination is one the token factory may mint. -/
theorem constructed_mintable {k : Codec} {c s d : Str} (h : getTokenDenom k c s = some d) : (deconstruct k d).isSome = true := by
  obtain ⟨a, _, h1⟩ := deconstruct_construct h
  rw [h1]
  rfl

/-- A denomination spelled canonically that can be deconstructed is determined by what it deconstructs to. -/
theorem deconstruct_canonical {k : Codec} {d c s : Str} (h : deconstruct k d = some (c, s))
    (hc : (split d)[1]? = some c) : d = factory ++ '/' :: (c ++ '/' :: s) := by
  unfold deconstruct at h
  split at h
  · have hj := join_split d
    split at h
    · rename_i pre creator p ps hsd
      rw [hsd] at hc hj
      split at h
      · rename_i hf
        split at h
        · cases h
        split at h
        · cases h
        split at h
        · cases h
        cases h
        have : creator = k.encode _ := Option.some.inj hc
        rw [← hj, hf, ← this]
        rfl
      · cases h
    · cases h
  · cases h

/-- A toy codec with two spellings of each address: `a`s in lower case or in upper case. -/
def toy : Codec where
  decode s := if s = [] then none else if s.all (· == 'a') || s.all (· == 'A') then some (s.length - 1) else none
  encode a := List.replicate (a + 1) 'a'
  decode_encode a := by simp [List.replicate_succ]
  no_slash a := by simp
  decode_nil := rfl

example : getTokenDenom toy ['A', 'A'] ['x', '/', 'y'] =
    some ['f', 'a', 'c', 't', 'o', 'r', 'y', '/', 'a', 'a', '/', 'x', '/', 'y'] := by decide +kernel
example : deconstruct toy ['f', 'a', 'c', 't', 'o', 'r', 'y', '/', 'a', 'a', '/', 'x', '/', 'y'] =
    some (['a', 'a'], ['x', '/', 'y']) := by decide +kernel
example : getTokenDenom toy ['a'] ['x', '/', '/', 'y'] = none := by decide +kernel

/-- Deconstruction alone does not identify a denomination: it also accepts one with the creator in another spelling, which
`GetTokenDenom` never makes but a genesis file may contain. -/
theorem deconstruct_not_injective :
    deconstruct toy ['f', 'a', 'c', 't', 'o', 'r', 'y', '/', 'A', 'A', '/', 'x'] =
      deconstruct toy ['f', 'a', 'c', 't', 'o', 'r', 'y', '/', 'a', 'a', '/', 'x'] ∧
    (deconstruct toy ['f', 'a', 'c', 't', 'o', 'r', 'y', '/', 'A', 'A', '/', 'x']).isSome = true := by decide +kernel

end TokenFactory
