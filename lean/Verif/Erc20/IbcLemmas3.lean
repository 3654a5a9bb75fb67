import Verif.Erc20.IbcLemmas2
/-!
# IBC transfers of tokens: the books are kept
-/
namespace Erc20.Ibc

open Erc20.Convert

theorem owed_setOut {s : St} {i : Nat} {p : Out} (hp : s.out i = some p) (hi : i < s.nOut) (x : OutAt) (c : Nat) :
    owed (setOut s i p x) c + dueOut c (some p) = owed s c + dueOut c (some { p with at_ := x }) := by
  have := sumTo_set (f := fun j => dueOut c (s.out j)) (g := fun j => dueOut c ((setOut s i p x).out j)) hi
    (fun j hj => by dsimp only [setOut, setAt]; rw [if_neg hj])
  rw [hp] at this
  have e : (setOut s i p x).out i = some { p with at_ := x } := if_pos rfl
  rw [e] at this
  unfold owed
  show s.there c + sumTo (fun j => dueOut c ((setOut s i p x).out j)) s.nOut + sumTo (fun j => dueIn c (s.inn j)) s.nIn + _ = _
  omega

theorem owed_setIn {s : St} {i : Nat} {p : In} (hp : s.inn i = some p) (hi : i < s.nIn) (x : InAt) (c : Nat) :
    owed (setIn s i p x) c + dueIn c (some p) = owed s c + dueIn c (some { p with at_ := x }) := by
  have := sumTo_set (f := fun j => dueIn c (s.inn j)) (g := fun j => dueIn c ((setIn s i p x).inn j)) hi
    (fun j hj => by dsimp only [setIn, setAt]; rw [if_neg hj])
  rw [hp] at this
  have e : (setIn s i p x).inn i = some { p with at_ := x } := if_pos rfl
  rw [e] at this
  unfold owed
  show s.there c + sumTo (fun j => dueOut c (s.out j)) s.nOut + sumTo (fun j => dueIn c ((setIn s i p x).inn j)) s.nIn + _ = _
  omega

/-- A packet changes its place; what is owed and what is there change together. -/
theorem Books.out {s s' : St} (h : Books s) {i : Nat} {p : Out} {x : OutAt} (hp : s.out i = some p)
    (h1 : s'.out = setAt s.out i (some { p with at_ := x })) (h2 : s'.nOut = s.nOut) (h3 : s'.inn = s.inn) (h4 : s'.nIn = s.nIn)
    (h6 : s'.locked = s.locked)
    (hc : ∀ c, s'.there c + dueOut c (some { p with at_ := x }) + s.w.coins (esc c) ≤
      s.there c + dueOut c (some p) + s'.w.coins (esc c)) : Books s' := by
  have hi := (h.outs i p hp).1
  refine ⟨fun j q hq => ?_, fun j q hq => ?_, fun c => ?_⟩
  · rw [h2]
    rw [h1] at hq
    unfold setAt at hq
    split at hq
    · cases hq
      rename_i e
      subst e
      exact h.outs j p hp
    · exact h.outs j q hq
  · rw [h4]
    rw [h3] at hq
    exact h.ins j q hq
  · have e := owed_setOut hp hi x c
    have e2 : Ibc.owed s' c + s.there c = Ibc.owed (setOut s i p x) c + s'.there c := by
      unfold Ibc.owed
      rw [h1, h2, h3, h4]
      show s'.there c + sumTo (fun j => dueOut c ((setOut s i p x).out j)) s.nOut + sumTo (fun j => dueIn c (s.inn j)) s.nIn + s.there c =
        s.there c + sumTo (fun j => dueOut c ((setOut s i p x).out j)) s.nOut + sumTo (fun j => dueIn c (s.inn j)) s.nIn + s'.there c
      omega
    have := hc c
    have := h.owed c
    rw [h6]
    omega

theorem Books.inn {s s' : St} (h : Books s) {i : Nat} {p : In} {x : InAt} (hp : s.inn i = some p)
    (h1 : s'.inn = setAt s.inn i (some { p with at_ := x })) (h2 : s'.nOut = s.nOut) (h3 : s'.out = s.out) (h4 : s'.nIn = s.nIn)
    (h6 : s'.locked = s.locked)
    (hc : ∀ c, s'.there c + dueIn c (some { p with at_ := x }) + s.w.coins (esc c) ≤
      s.there c + dueIn c (some p) + s'.w.coins (esc c)) : Books s' := by
  have hi := (h.ins i p hp).1
  refine ⟨fun j q hq => ?_, fun j q hq => ?_, fun c => ?_⟩
  · rw [h2]
    rw [h3] at hq
    exact h.outs j q hq
  · rw [h4]
    rw [h1] at hq
    unfold setAt at hq
    split at hq
    · cases hq
      rename_i e
      subst e
      exact h.ins j p hp
    · exact h.ins j q hq
  · have e := owed_setIn hp hi x c
    have e2 : Ibc.owed s' c + s.there c = Ibc.owed (setIn s i p x) c + s'.there c := by
      unfold Ibc.owed
      rw [h1, h2, h3, h4]
      show s'.there c + sumTo (fun j => dueOut c (s.out j)) s.nOut + sumTo (fun j => dueIn c ((setIn s i p x).inn j)) s.nIn + s.there c =
        s.there c + sumTo (fun j => dueOut c (s.out j)) s.nOut + sumTo (fun j => dueIn c ((setIn s i p x).inn j)) s.nIn + s'.there c
      omega
    have := hc c
    have := h.owed c
    rw [h6]
    omega

/-- What a successful refund did. -/
theorem refund_cases {s s' : St} {p : Out} (hu : isUser p.sender = true) (hn : 0 < p.amount) (h : refund s p = some s') :
    s.locked (esc p.chan) + p.amount ≤ s.w.coins (esc p.chan) ∧
      ((s.on = false ∧ s' = { s with w := { s.w with coins := moved s.w.coins (esc p.chan) p.sender p.amount } }) ∨
       (s.on = true ∧ s.w.tok.paused = false ∧ p.amount ≤ s.w.tok.bal moduleAddr ∧ s.locked p.sender ≤ s.w.coins p.sender ∧
        s' = { s with w := { tok := { s.w.tok with bal := moved s.w.tok.bal moduleAddr p.sender p.amount },
                             coins := setCoins s.w.coins (esc p.chan) (s.w.coins (esc p.chan) - p.amount),
                             supply := s.w.supply - p.amount } })) := by
  have hm := user_ne_module hu
  have he := esc_ne_user hu p.chan
  unfold refund at h
  cases hp : pay s (esc p.chan) p.sender p.amount with
  | none => rw [hp] at h; cases h
  | some s1 =>
    rw [hp] at h
    dsimp only at h
    obtain ⟨h1, e1⟩ := pay_coins hp
    refine ⟨h1, ?_⟩
    subst e1
    dsimp only at h
    have hn' : p.amount ≤ s.w.coins (esc p.chan) := by omega
    cases hon : s.on with
    | false =>
      rw [hon, if_neg (by decide)] at h
      left
      cases h
      exact ⟨rfl, by rw [← hon]⟩
    | true =>
      rw [hon, if_pos rfl, toTokens_eq _ _ hm, if_neg (by omega)] at h
      right
      split at h
      · cases h
      rename_i h2
      dsimp only at h2 h
      cases h
      have hs := moved_at (b := p.sender) hn' p.sender
      rw [if_neg (fun e => he e.symm), if_pos rfl] at hs
      refine ⟨rfl, ?_, ?_, ?_, ?_⟩
      · cases hpa : s.w.tok.paused with
        | false => rfl
        | true => exact absurd (Or.inr (Or.inl hpa)) h2
      · have := fun e => h2 (Or.inr (Or.inr e)); omega
      · have := fun e => h2 (Or.inl e); omega
      · congr 2
        funext x
        unfold setCoins
        by_cases hx : x = p.sender
        · subst hx
          rw [if_pos rfl, if_neg (fun e => he e.symm)]
          omega
        · rw [if_neg hx]
          have hm' := moved_at (b := p.sender) hn' x
          rw [if_neg hx] at hm'
          by_cases hxe : x = esc p.chan
          · rw [if_pos hxe] at hm' ⊢
            rw [hxe] at hm' ⊢
            omega
          · rw [if_neg hxe] at hm' ⊢
            omega

/-- When a refund succeeds. -/
theorem refund_succeeds {s : St} {p : Out} (hu : isUser p.sender = true) (hn : 0 < p.amount)
    (h1 : s.locked (esc p.chan) + p.amount ≤ s.w.coins (esc p.chan))
    (h2 : s.on = true → s.w.tok.paused = false ∧ p.amount ≤ s.w.tok.bal moduleAddr ∧ s.locked p.sender ≤ s.w.coins p.sender) :
    ∃ s', refund s p = some s' := by
  have hm := user_ne_module hu
  have he := esc_ne_user hu p.chan
  unfold refund
  rw [pay_eq, if_neg (by omega)]
  dsimp only
  cases hon : s.on with
  | false => exact ⟨_, if_neg (by decide)⟩
  | true =>
    obtain ⟨a, b, c⟩ := h2 hon
    have hn' : p.amount ≤ s.w.coins (esc p.chan) := by omega
    have hs := moved_at (b := p.sender) hn' p.sender
    rw [if_neg (fun e => he e.symm), if_pos rfl] at hs
    rw [if_pos rfl, toTokens_eq _ _ hm, if_neg (by omega), if_neg]
    · exact ⟨_, rfl⟩
    · dsimp only
      rintro (h | h | h)
      · omega
      · rw [a] at h; cases h
      · omega

/-- What a successful arrival did; the recipient is no account of a channel. -/
theorem receive_cases {s s' : St} {p : In} (hu : ∀ d, p.recipient ≠ esc d) (hn : 0 < p.amount) (h : receive s p = some s') :
    p.recipient ≠ moduleAddr ∧ s.locked (esc p.chan) + p.amount ≤ s.w.coins (esc p.chan) ∧
      (((s.on = false ∨ s.pair = false) ∧ s' = { s with w := { s.w with coins := moved s.w.coins (esc p.chan) p.recipient p.amount } }) ∨
       (s.on = true ∧ s.pair = true ∧ p.self = false ∧ s.w.tok.paused = false ∧ s.locked p.recipient = 0 ∧
        p.amount + s.w.coins p.recipient ≤ s.w.tok.bal moduleAddr ∧
        s' = { s with w := { tok := { s.w.tok with bal := moved s.w.tok.bal moduleAddr p.recipient (s.w.coins p.recipient + p.amount) },
                             coins := setCoins (setCoins s.w.coins (esc p.chan) (s.w.coins (esc p.chan) - p.amount)) p.recipient 0,
                             supply := s.w.supply - (s.w.coins p.recipient + p.amount) } })) := by
  unfold receive at h
  split at h
  · cases h
  rename_i hm
  refine ⟨hm, ?_⟩
  have he := hu p.chan
  cases hp : pay s (esc p.chan) p.recipient p.amount with
  | none => rw [hp] at h; cases h
  | some s1 =>
    rw [hp] at h
    dsimp only at h
    obtain ⟨h1, e1⟩ := pay_coins hp
    refine ⟨h1, ?_⟩
    subst e1
    have hn' : p.amount ≤ s.w.coins (esc p.chan) := by omega
    unfold afterRecv at h
    dsimp only at h
    cases hon : s.on with
    | false =>
      rw [hon, if_pos rfl] at h
      left
      cases h
      exact ⟨Or.inl rfl, by rw [← hon]⟩
    | true =>
      rw [hon, if_neg (by decide)] at h
      cases hself : p.self with
      | true => rw [hself, if_pos rfl] at h; cases h
      | false =>
        rw [hself, if_neg (by decide)] at h
        cases hpr : s.pair with
        | false =>
          rw [hpr, if_pos rfl] at h
          left
          cases h
          refine ⟨Or.inr rfl, ?_⟩
          rw [← hon, ← hpr]
        | true =>
          rw [hpr, if_neg (by decide)] at h
          right
          have hs := moved_at (b := p.recipient) hn' p.recipient
          rw [if_neg he, if_pos rfl, Nat.add_zero] at hs
          rw [toTokens_eq _ _ hm, hs, if_neg (by omega)] at h
          split at h
          · cases h
          rename_i h2
          dsimp only at h2 h
          rw [hs] at h2 h
          cases h
          refine ⟨rfl, rfl, rfl, ?_, ?_, ?_, ?_⟩
          · cases hpa : s.w.tok.paused with
            | false => rfl
            | true => exact absurd (Or.inr (Or.inl hpa)) h2
          · have := fun e => h2 (Or.inl e); omega
          · have := fun e => h2 (Or.inr (Or.inr e)); omega
          · congr 2
            funext x
            unfold setCoins
            by_cases hx : x = p.recipient
            · rw [if_pos hx, if_pos hx]
              omega
            · rw [if_neg hx, if_neg hx]
              have hm' := moved_at (b := p.recipient) hn' x
              rw [if_neg hx] at hm'
              by_cases hxe : x = esc p.chan
              · rw [if_pos hxe] at hm' ⊢
                rw [hxe] at hm' ⊢
                omega
              · rw [if_neg hxe] at hm' ⊢
                omega

end Erc20.Ibc
