import Verif.TokenFactory.Factory
import Verif.TokenFactory.DenomProps
/-!
# What each message of the token factory does
-/
namespace TokenFactory

theorem upd_self {α β : Type} [DecidableEq α] (f : α → β) (a : α) (b : β) : upd f a b a = b := if_pos rfl
theorem upd_ne {α β : Type} [DecidableEq α] (f : α → β) {a x : α} (b : β) (h : x ≠ a) : upd f a b x = f x := if_neg h

theorem createAfter_some {g : Config} {s s' : State} {c d n y : Str} {dec : Nat} (h : createAfter g s c d n y dec = some s') :
    (c = [] ∨ (g.k.decode c).isSome = true) ∧
    s' = { s with
      metadata := upd s.metadata d (some ⟨n, y, dec, []⟩)
      admin := upd s.admin d c
      index := if (c, d) ∈ s.index then s.index else s.index ++ [(c, d)] } := by
  unfold createAfter at h
  split at h
  · rename_i hc
    exact ⟨hc, (Option.some.inj h).symm⟩
  · cases h

theorem create_some {g : Config} {s s' : State} {c sub n y : Str} {dec : Nat} (h : create g s c sub n y dec = some s') :
    ∃ d b, getTokenDenom g.k c sub = some d ∧ s.metadata d = none ∧ (g.k.decode c).isSome = true ∧
      createAfter g { s with bal := b } c d n y dec = some s' := by
  unfold create at h
  split at h
  · cases h
  split at h
  · cases h
  rename_i d hd
  split at h
  · cases h
  rename_i hm
  split at h
  · cases h
  rename_i a ha
  split at h
  · cases h
  rename_i b hb
  refine ⟨d, b, hd, ?_, by rw [ha]; rfl, h⟩
  cases hx : s.metadata d with
  | none => rfl
  | some m => rw [hx] at hm; exact absurd rfl hm

theorem mint_some {g : Config} {s s' : State} {c d : Str} {n : Int} (h : mint g s c d n = some s') :
    ∃ a, (s.metadata d).isSome = true ∧ c = s.admin d ∧ (deconstruct g.k d).isSome = true ∧ 0 < n ∧ g.k.decode c = some a ∧
      g.blocked a = false ∧
      s' = { s with supply := upd s.supply d (s.supply d + n.toNat), bal := give s.bal a d n.toNat } := by
  unfold mint at h
  split at h
  · cases h
  rename_i h1
  split at h
  · cases h
  rename_i h2
  split at h
  · cases h
  rename_i h3
  split at h
  · cases h
  rename_i h4
  split at h
  · cases h
  rename_i a ha
  split at h
  · cases h
  rename_i h5
  refine ⟨a, ?_, Decidable.not_not.1 h2, ?_, by omega, ha, Bool.not_eq_true _ ▸ h5, (Option.some.inj h).symm⟩
  · cases hx : s.metadata d with
    | none => rw [hx] at h1; exact absurd rfl h1
    | some m => rfl
  · cases hx : deconstruct g.k d with
    | none => rw [hx] at h3; exact absurd rfl h3
    | some m => rfl

theorem burn_some {g : Config} {s s' : State} {c d : Str} {n : Int} (h : burn g s c d n = some s') :
    ∃ a, 0 < n ∧ g.k.decode c = some a ∧ n.toNat ≤ s.bal a d ∧ n.toNat ≤ s.supply d ∧
      s' = { s with
        bal := upd s.bal a (upd (s.bal a) d (s.bal a d - n.toNat))
        supply := upd s.supply d (s.supply d - n.toNat) } := by
  unfold burn at h
  split at h
  · cases h
  rename_i h1
  split at h
  · cases h
  rename_i a ha
  unfold take at h
  by_cases hb : s.bal a d < n.toNat
  · rw [if_pos hb] at h; cases h
  · rw [if_neg hb] at h
    dsimp only at h
    split at h
    · cases h
    exact ⟨a, by omega, ha, by omega, by omega, (Option.some.inj h).symm⟩

theorem changeAdmin_some {g : Config} {s s' : State} {c d n : Str} (h : changeAdmin g s c d n = some s') :
    c = s.admin d ∧ s' = { s with admin := upd s.admin d n } := by
  unfold changeAdmin at h
  split at h
  · cases h
  rename_i h1
  split at h
  · exact ⟨Decidable.not_not.1 h1, (Option.some.inj h).symm⟩
  · cases h

theorem setMetadata_some {g : Config} {s s' : State} {c b : Str} {m : Metadata} (h : setMetadata g s c b m = some s') :
    mayDescribe g s c b = true ∧ decimalsOk (s.metadata b) m = true ∧ s' = { s with metadata := upd s.metadata b (some m) } := by
  unfold setMetadata at h
  split at h
  · cases h
  split at h
  · cases h
  rename_i h1
  split at h
  · cases h
  rename_i h2
  exact ⟨Bool.not_eq_false _ ▸ h1, Bool.not_eq_false _ ▸ h2, (Option.some.inj h).symm⟩

/-- A delivered message changes nothing, or it passed validation and was handled. -/
theorem deliver_cases (g : Config) (s : State) (m : Msg) :
    deliver g s m = s ∨ (validateBasic g m = true ∧ handle g s m = some (deliver g s m)) := by
  unfold deliver
  split
  · rename_i hv
    cases h : handle g s m with
    | none => exact .inl rfl
    | some s' => exact .inr ⟨hv, rfl⟩
  · exact .inl rfl

theorem sender_decodes {g : Config} {m : Msg} (h : validateBasic g m = true) : (g.k.decode m.sender).isSome = true := by
  cases m <;> unfold validateBasic at h <;> simp only [Bool.and_eq_true] at h <;> simp only [Msg.sender] <;> grind

/-- An operation changes balances only, or delivers a message that passed validation; as a transaction, it is signed by the account
of its sender. -/
theorem step_cases (g : Config) (s : State) (op : Op) :
    (∃ b, step g s op = { s with bal := b }) ∨
    ∃ m, ((∃ signers a, op = .tx signers m ∧ g.k.decode m.sender = some a ∧ a ∈ signers) ∨ op = .proposal m) ∧
      validateBasic g m = true ∧ handle g s m = some (step g s op) := by
  cases op with
  | tx signers m =>
    unfold step
    dsimp only
    split
    · exact .inl ⟨s.bal, rfl⟩
    rename_i a ha
    split
    · rename_i hs
      rcases deliver_cases g s m with h | ⟨hv, hh⟩
      · exact .inl ⟨s.bal, h⟩
      · exact .inr ⟨m, .inl ⟨signers, a, rfl, ha, hs⟩, hv, hh⟩
    · exact .inl ⟨s.bal, rfl⟩
  | proposal m =>
    rcases deliver_cases g s m with h | ⟨hv, hh⟩
    · exact .inl ⟨s.bal, h⟩
    · exact .inr ⟨m, .inr rfl, hv, hh⟩
  | transfer src dst d n =>
    unfold step
    dsimp only
    split
    · exact .inl ⟨s.bal, rfl⟩
    · exact .inl ⟨_, rfl⟩

end TokenFactory
