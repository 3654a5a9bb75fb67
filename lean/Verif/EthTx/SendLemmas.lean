import Verif.EthTx.SendSpec
import Verif.EthTx.WrapProps
/-!
# Lemmas for C89
-/

namespace Send

open Addr Wrap

/-- What filling in the fees leaves alone, and what it gives. -/
theorem fillFees_spec {n : Node} {a b : Args} (h : fillFees n a = some b) :
    b.sender = a.sender ∧ b.to = a.to ∧ b.gas = a.gas ∧ b.value = a.value ∧ b.nonce = a.nonce ∧ b.data = a.data ∧
    b.input = a.input ∧ b.accesses = a.accesses ∧ b.chain = a.chain ∧
    ((∃ p, b.price = some p ∧ b.tip = none ∧ b.cap = none ∧ a.tip = none ∧ a.cap = none ∧
        (a.price = some p ∨ a.price = none ∧ n.base = none ∧ n.suggest = some p)) ∨
     (∃ t c, b.tip = some t ∧ b.cap = some c ∧ b.price = none ∧ a.price = none ∧ t ≤ c ∧
        (a.tip = some t ∨ a.tip = none ∧ n.suggest = some t) ∧
        (a.cap = some c ∨ a.cap = none ∧ ∃ base, n.base = some base ∧ c = t + base * 2))) := by
  obtain ⟨sender, to, gas, price, cap, tip, value, nonce, data, input, accesses, chain⟩ := a
  unfold fillFees at h
  dsimp only at h
  split at h
  · cases h
  · rename_i hp
    cases tip with
    | some t =>
      cases cap with
      | some c =>
        dsimp only at h
        split at h
        · cases h
        · cases h
          rename_i hle
          cases price with
          | some p => exact absurd rfl hp
          | none =>
            exact ⟨rfl, rfl, rfl, rfl, rfl, rfl, rfl, rfl, rfl,
              .inr ⟨t, c, rfl, rfl, rfl, rfl, by omega, .inl rfl, .inl rfl⟩⟩
      | none =>
        cases price with
        | some p => exact absurd rfl hp
        | none =>
          cases hb : n.base with
          | none => rw [hb] at h; dsimp only at h; exact absurd h (fun e => nomatch e)
          | some base =>
            rw [hb] at h
            dsimp only at h
            split at h
            · cases h
            · cases h
              exact ⟨rfl, rfl, rfl, rfl, rfl, rfl, rfl, rfl, rfl,
                .inr ⟨t, _, rfl, rfl, rfl, rfl, by omega, .inl rfl, .inr ⟨rfl, base, rfl, rfl⟩⟩⟩
    | none =>
      cases price with
      | some p =>
        cases cap with
        | some c => exact absurd rfl hp
        | none =>
          have h' : some (⟨sender, to, gas, some p, none, none, value, nonce, data, input, accesses, chain⟩ : Args) = some b := by
            cases hb : n.base with
            | none => rw [hb] at h; exact h
            | some base => rw [hb] at h; exact h
          cases h'
          exact ⟨rfl, rfl, rfl, rfl, rfl, rfl, rfl, rfl, rfl, .inl ⟨p, rfl, rfl, rfl, rfl, rfl, .inl rfl⟩⟩
      | none =>
        cases hb : n.base with
        | none =>
          rw [hb] at h
          cases cap with
          | some c => exact absurd h (fun e => nomatch e)
          | none =>
            dsimp only at h
            cases hs : n.suggest with
            | none => rw [hs] at h; exact absurd h (fun e => nomatch e)
            | some s =>
              rw [hs] at h
              cases h
              exact ⟨rfl, rfl, rfl, rfl, rfl, rfl, rfl, rfl, rfl,
                .inl ⟨s, rfl, rfl, rfl, rfl, rfl, .inr ⟨rfl, rfl, rfl⟩⟩⟩
        | some base =>
          rw [hb] at h
          cases hs : n.suggest with
          | none => rw [hs] at h; cases cap <;> exact absurd h (fun e => nomatch e)
          | some s =>
            rw [hs] at h
            cases cap with
            | some c =>
              dsimp only at h
              split at h
              · cases h
              · cases h
                exact ⟨rfl, rfl, rfl, rfl, rfl, rfl, rfl, rfl, rfl,
                  .inr ⟨s, c, rfl, rfl, rfl, rfl, by omega, .inr ⟨rfl, rfl⟩, .inl rfl⟩⟩
            | none =>
              dsimp only at h
              split at h
              · cases h
              · cases h
                exact ⟨rfl, rfl, rfl, rfl, rfl, rfl, rfl, rfl, rfl,
                  .inr ⟨s, _, rfl, rfl, rfl, rfl, by omega, .inr ⟨rfl, rfl⟩, .inr ⟨rfl, base, rfl, rfl⟩⟩⟩

theorem fillGas_spec {n : Node} {a b : Args} (h : fillGas n a = some b) :
    ∃ g, b = { a with gas := some g } ∧ (a.gas = some g ∨ a.gas = none ∧ ∃ c, n.estimate c = some g) := by
  unfold fillGas at h
  cases hg : a.gas with
  | some g =>
    rw [hg] at h
    cases h
    exact ⟨g, by rw [← hg], .inl rfl⟩
  | none =>
    rw [hg] at h
    dsimp only at h
    split at h
    · cases h
    · rename_i g he
      cases h
      exact ⟨g, rfl, .inr ⟨rfl, _, he⟩⟩

/-- What the text of accesses reads as. -/
theorem kind_accesses (up : List Nat → Nat → Bool) (o : Option (List (List Nat × List (List Nat))))
    (hl : ∀ l, o = some l → IsAccesses l) :
    readAccesses (accText up o) = o.getD [] := by
  cases o with
  | none => rfl
  | some l => exact read_text up l (hl l rfl)

theorem to_text (up : List Nat → Nat → Bool) (o : Option (List Nat)) (h : ∀ x, o = some x → IsAddr x) :
    (if toText up o = [] then none else some (hexToAddress (toText up o))) = o := by
  cases o with
  | none => rfl
  | some x =>
    unfold toText
    dsimp only
    rw [if_neg (hexString_ne_nil _ _), hexToAddress_text _ (h x rfl)]

/-! ## Nonces -/

theorem countMsgs_used (who : Nat) (t : List PMsg) (h : Plain who t) :
    countMsgs who t = (t.filterMap (nonceOf who)).length := by
  rcases h with h | h
  · induction t with
    | nil => rfl
    | cons m t ih =>
      obtain ⟨s, n, rfl⟩ := h _ List.mem_cons_self
      unfold countMsgs
      rw [ih (fun m hm => h m (.tail _ hm)), List.filterMap_cons]
      unfold nonceOf
      dsimp only
      by_cases hs : s = some who
      · rw [if_pos hs, if_pos hs]; dsimp only; rw [List.length_cons]; omega
      · rw [if_neg hs, if_neg hs]; dsimp only; omega
  · have hz : t.filterMap (nonceOf who) = [] := by
      rw [List.filterMap_eq_nil_iff]
      intro m hm
      obtain ⟨s, n, rfl, hs⟩ := h m hm
      unfold nonceOf
      dsimp only
      rw [if_neg hs]
    rw [hz]
    cases t with
    | nil => rfl
    | cons m t =>
      obtain ⟨s, n, rfl, _⟩ := h m List.mem_cons_self
      rfl

theorem count_used (who : Nat) (pool : List (List PMsg)) (h : ∀ t ∈ pool, Plain who t) :
    (pool.map (countMsgs who)).sum = (usedNonces who pool).length := by
  induction pool with
  | nil => rfl
  | cons t pool ih =>
    unfold usedNonces at *
    rw [List.map_cons, List.sum_cons, ih (fun t ht => h t (.tail _ ht)), List.flatMap_cons, List.length_append,
      countMsgs_used who t (h t List.mem_cons_self)]

end Send
