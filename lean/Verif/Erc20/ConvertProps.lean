import Verif.Erc20.Convert
/-!
# Backing of converted coins (C40)
-/
namespace Erc20.Convert

theorem setCoins_self (c : Nat → Nat) (a n : Nat) : setCoins c a n a = n := if_pos rfl
theorem setCoins_ne (c : Nat → Nat) {a x : Nat} (n : Nat) (h : x ≠ a) : setCoins c a n x = c x := if_neg h

/-- Whatever the contract does: after a successful conversion the contract reports exactly `amount` more tokens in escrow than before,
exactly `amount` coins were minted after its call, the receiver has exactly `amount` more coins than before, and no approval was logged. -/
theorem convert_exact {σ : Type} {t : Token σ} {w w' : World σ} {s r n : Nat} (h : convertERC20 t w s r n = some w') :
    0 < n ∧ ∃ before w1 logs, t.balanceOf w.tok moduleAddr = some before ∧ t.transfer w s moduleAddr n = some (w1, true, logs) ∧
      w'.tok = w1.tok ∧ t.balanceOf w'.tok moduleAddr = some (before + n) ∧ w'.supply = w1.supply + n ∧
      w'.coins r = w.coins r + n ∧ (∀ a, a ≠ r → w'.coins a = w1.coins a) ∧ ∀ l ∈ logs, l.head? ≠ some approvalSig := by
  unfold convertERC20 at h
  by_cases hn : n = 0
  · rw [if_pos hn] at h; cases h
  rw [if_neg hn] at h
  cases hb : t.balanceOf w.tok moduleAddr with
  | none => rw [hb] at h; cases h
  | some before =>
    rw [hb] at h
    dsimp only at h
    cases ht : t.transfer w s moduleAddr n with
    | none => rw [ht] at h; cases h
    | some res =>
      rw [ht] at h
      obtain ⟨w1, ret, logs⟩ := res
      dsimp only [convertAfter] at h
      cases ret with
      | false => cases h
      | true =>
        rw [if_neg (by decide)] at h
        cases ha : t.balanceOf w1.tok moduleAddr with
        | none => rw [ha] at h; cases h
        | some after =>
          rw [ha] at h
          dsimp only at h
          split at h
          · cases h
          rename_i e1
          split at h
          · cases h
          rename_i e2
          split at h
          · cases h
          rename_i e3
          cases h
          have e1 : after = before + n := Decidable.not_not.1 e1
          refine ⟨Nat.pos_of_ne_zero hn, before, w1, logs, rfl, rfl, rfl, ?_, rfl, Decidable.not_not.1 e2, fun a har => ?_, ?_⟩
          · show t.balanceOf w1.tok moduleAddr = _
            rw [ha, e1]
          · exact setCoins_ne _ _ har
          · intro l hl hap
            have e3 : logsOk logs = true := by
              cases hh : logsOk logs with
              | true => rfl
              | false => exact absurd hh e3
            have := List.all_eq_true.1 e3 l hl
            cases l with
            | nil => cases hap
            | cons x l =>
              have hx : x = approvalSig := Option.some.inj hap
              subst hx
              exact absurd (show (approvalSig != approvalSig) = true from this) (by decide)

/-- Whatever the contract does: a successful conversion back took `n` coins from the sender before the contract ran, burned exactly `n`
afterwards, and the contract reports exactly `n` more tokens for the receiver than before. -/
theorem back_exact {σ : Type} {t : Token σ} {w w' : World σ} {s r n : Nat} (h : convertBack t w s r n = some w') (hn : 0 < n) :
    ∃ before w1 w2 logs, t.balanceOf w.tok r = some before ∧ escrowCoins w s n = some w1 ∧
      t.transfer w1 moduleAddr r n = some (w2, true, logs) ∧ w'.tok = w2.tok ∧ t.balanceOf w'.tok r = some (before + n) ∧
      n ≤ w2.coins moduleAddr ∧ w'.supply = w2.supply - n ∧ w'.coins = setCoins w2.coins moduleAddr (w2.coins moduleAddr - n) ∧
      ∀ l ∈ logs, l.head? ≠ some approvalSig := by
  unfold convertBack at h
  rw [if_neg (by omega)] at h
  cases hb : t.balanceOf w.tok r with
  | none => rw [hb] at h; cases h
  | some before =>
    rw [hb] at h
    dsimp only at h
    cases he : escrowCoins w s n with
    | none => rw [he] at h; cases h
    | some w1 =>
      rw [he] at h
      dsimp only at h
      cases ht : t.transfer w1 moduleAddr r n with
      | none => rw [ht] at h; cases h
      | some res =>
        rw [ht] at h
        obtain ⟨w2, ret, logs⟩ := res
        dsimp only [backAfter] at h
        cases ret with
        | false => cases h
        | true =>
          rw [if_neg (by decide)] at h
          cases ha : t.balanceOf w2.tok r with
          | none => rw [ha] at h; cases h
          | some after =>
            rw [ha] at h
            dsimp only at h
            split at h
            · cases h
            rename_i e1
            have e1 : after = before + n := Decidable.not_not.1 e1
            unfold burn at h
            split at h
            · cases h
            rename_i w3 hw3
            split at hw3
            · cases hw3
            rename_i e2
            cases hw3
            split at h
            · cases h
            rename_i e3
            cases h
            refine ⟨before, w1, w2, logs, rfl, rfl, ht, rfl, ?_, by omega, rfl, rfl, ?_⟩
            · show t.balanceOf w2.tok r = _
              rw [ha, e1]
            · intro l hl hap
              have e3 : logsOk logs = true := by
                cases hh : logsOk logs with
                | true => rfl
                | false => exact absurd hh e3
              have := List.all_eq_true.1 e3 l hl
              cases l with
              | nil => cases hap
              | cons x l =>
                have hx : x = approvalSig := Option.some.inj hap
                subst hx
                exact absurd (show (approvalSig != approvalSig) = true from this) (by decide)

theorem escrowCoins_some {σ : Type} {w w1 : World σ} {a n : Nat} (h : escrowCoins w a n = some w1) :
    n ≤ w.coins a ∧ w1.tok = w.tok ∧ w1.supply = w.supply := by
  unfold escrowCoins at h
  split at h
  · cases h
  · rename_i h1
    cases h
    exact ⟨by omega, rfl, rfl⟩

/-- A well-behaved contract: it always answers, a transfer that answers `true` moves exactly the amount from the module to another account,
never takes tokens from the module on behalf of others, and touches no coins. -/
structure Honest {σ : Type} (t : Token σ) (bal : σ → Nat → Nat) : Prop where
  answers : ∀ s a, t.balanceOf s a = some (bal s a)
  out : ∀ w r n w' logs, t.transfer w moduleAddr r n = some (w', true, logs) → r ≠ moduleAddr →
    bal w'.tok moduleAddr + n = bal w.tok moduleAddr
  self : ∀ w n w' logs, t.transfer w moduleAddr moduleAddr n = some (w', true, logs) → bal w'.tok moduleAddr = bal w.tok moduleAddr
  coins : ∀ w a b n w' ok logs, t.transfer w a b n = some (w', ok, logs) → w'.coins = w.coins ∧ w'.supply = w.supply

/-- What others do with the contract takes nothing out of escrow: the module's account signs nothing and approves nobody. -/
def Others {σ : Type} (bal : σ → Nat → Nat) : Op σ → Prop
  | .use f => ∀ s, bal s moduleAddr ≤ bal (f s) moduleAddr
  | _ => True

theorem convert_backed {σ : Type} {t : Token σ} {bal : σ → Nat → Nat} (ht : Honest t bal) {w w' : World σ} {s r n : Nat}
    (h : convertERC20 t w s r n = some w') :
    w'.supply = w.supply + n ∧ bal w'.tok moduleAddr = bal w.tok moduleAddr + n := by
  obtain ⟨_, before, w1, logs, h1, h2, _, h4, h5, _, _, _⟩ := convert_exact h
  rw [ht.answers] at h1 h4
  rw [h5, (ht.coins _ _ _ _ _ _ _ h2).2, Option.some.inj h4, Option.some.inj h1]
  exact ⟨rfl, rfl⟩

theorem back_backed {σ : Type} {t : Token σ} {bal : σ → Nat → Nat} (ht : Honest t bal) {w w' : World σ} {s r n : Nat}
    (h : convertBack t w s r n = some w') (hb : w.supply ≤ bal w.tok moduleAddr) : w'.supply ≤ bal w'.tok moduleAddr := by
  by_cases hn : n = 0
  · unfold convertBack at h
    rw [if_pos hn] at h
    cases h
    exact hb
  obtain ⟨before, w1, w2, logs, h1, h2, h3, h4, h5, h6, h7, _⟩ := back_exact h (Nat.pos_of_ne_zero hn)
  obtain ⟨_, k2, k3⟩ := escrowCoins_some h2
  have k4 := (ht.coins _ _ _ _ _ _ _ h3).2
  rw [h7, h4, k4, k3]
  by_cases hr : r = moduleAddr
  · subst hr
    have := ht.self _ _ _ _ h3
    rw [this, k2]
    omega
  · have := ht.out _ _ _ _ _ h3 hr
    rw [k2] at this
    omega

theorem step_backed {σ : Type} {t : Token σ} {bal : σ → Nat → Nat} (ht : Honest t bal) {w : World σ} {op : Op σ}
    (ho : Others bal op) (hb : w.supply ≤ bal w.tok moduleAddr) : (step t w op).supply ≤ bal (step t w op).tok moduleAddr := by
  cases op with
  | convert s r n =>
    show (Option.getD (convertERC20 t w s r n) w).supply ≤ bal (Option.getD (convertERC20 t w s r n) w).tok moduleAddr
    cases hc : convertERC20 t w s r n with
    | none => exact hb
    | some w' =>
      obtain ⟨h1, h2⟩ := convert_backed ht hc
      show w'.supply ≤ bal w'.tok moduleAddr
      omega
  | arrive r =>
    show (Option.getD (convertBack t w r r (w.coins r)) w).supply ≤ bal (Option.getD (convertBack t w r r (w.coins r)) w).tok moduleAddr
    cases hc : convertBack t w r r (w.coins r) with
    | none => exact hb
    | some w' => exact back_backed ht hc hb
  | refund s n =>
    show (Option.getD (convertBack t w s s n) w).supply ≤ bal (Option.getD (convertBack t w s s n) w).tok moduleAddr
    cases hc : convertBack t w s s n with
    | none => exact hb
    | some w' => exact back_backed ht hc hb
  | send a b n =>
    unfold step
    dsimp only
    split
    · exact hb
    · exact hb
  | use f => exact Nat.le_trans hb (ho w.tok)

/-- The full property asks for every contract: "the coins in circulation never exceed the tokens escrowed, whatever the token contract does
within the checked calls". That is false (see the witnesses below). For a well-behaved contract it holds in every history. -/
theorem always_backed_partial {σ : Type} {t : Token σ} {bal : σ → Nat → Nat} (ht : Honest t bal) {w : World σ} {ops : List (Op σ)}
    (ho : ∀ op ∈ ops, Others bal op) (hb : w.supply ≤ bal w.tok moduleAddr) :
    (run t w ops).supply ≤ bal (run t w ops).tok moduleAddr := by
  induction ops generalizing w with
  | nil => exact hb
  | cons op ops ih => exact ih (fun o h => ho o (List.mem_cons_of_mem _ h)) (step_backed ht (ho op List.mem_cons_self) hb)

/-- Against any contract that leaves the coins alone while it is called: conversions into coins keep the backing the contract reports. -/
theorem conversions_in_keep_backing {σ : Type} {t : Token σ}
    (ht : ∀ w a b n w' ok logs, t.transfer w a b n = some (w', ok, logs) → w'.supply = w.supply) {w w' : World σ} {s r n : Nat}
    (h : convertERC20 t w s r n = some w') :
    ∃ before, t.balanceOf w.tok moduleAddr = some before ∧ t.balanceOf w'.tok moduleAddr = some (before + n) ∧
      w'.supply = w.supply + n := by
  obtain ⟨_, before, w1, logs, h1, h2, _, h4, h5, _⟩ := convert_exact h
  exact ⟨before, h1, h4, by rw [h5, ht _ _ _ _ _ _ _ h2]⟩

/-! ### Concrete contracts -/

/-- Balances by account. -/
abbrev Ledger := Nat → Nat

/-- Move tokens, or fail. -/
def move (l : Ledger) (a b n : Nat) : Option Ledger :=
  if l a < n then none else some (setCoins (setCoins l a (l a - n)) b (setCoins l a (l a - n) b + n))

/-- An ordinary contract. -/
def plain : Token Ledger where
  balanceOf l a := some (l a)
  transfer w a b n := (move w.tok a b n).map (fun l => ({ w with tok := l }, true, [[7]]))

theorem move_some {l l' : Ledger} {a b n : Nat} (h : move l a b n = some l') :
    n ≤ l a ∧ l' = setCoins (setCoins l a (l a - n)) b (setCoins l a (l a - n) b + n) := by
  unfold move at h
  split at h
  · cases h
  · rename_i hl
    cases h
    exact ⟨by omega, rfl⟩

theorem plain_some {w w' : World Ledger} {a b n : Nat} {ok : Bool} {logs : List Log}
    (h : plain.transfer w a b n = some (w', ok, logs)) :
    n ≤ w.tok a ∧ w' = { w with tok := setCoins (setCoins w.tok a (w.tok a - n)) b (setCoins w.tok a (w.tok a - n) b + n) } := by
  have h : (move w.tok a b n).map (fun l => (({ w with tok := l } : World Ledger), true, [[7]])) = some (w', ok, logs) := h
  cases hm : move w.tok a b n with
  | none => rw [hm] at h; cases h
  | some l =>
    rw [hm] at h
    obtain ⟨h1, h2⟩ := move_some hm
    cases h
    rw [← h2]
    exact ⟨h1, rfl⟩

/-- The ordinary contract is well-behaved. -/
theorem plain_honest : Honest plain (fun l a => l a) where
  answers _ _ := rfl
  out w r n w' logs h hr := by
    obtain ⟨h1, h2⟩ := plain_some h
    subst h2
    show setCoins _ r _ moduleAddr + n = _
    rw [setCoins_ne _ _ (Ne.symm hr), setCoins_self]
    omega
  self w n w' logs h := by
    obtain ⟨h1, h2⟩ := plain_some h
    subst h2
    dsimp only
    rw [setCoins_self, setCoins_self]
    omega
  coins w a b n w' ok logs h := by
    obtain ⟨_, h2⟩ := plain_some h
    subst h2
    exact ⟨rfl, rfl⟩

/-- Account 5 has 100 tokens. -/
def world0 : World Ledger := ⟨fun a => if a = 5 then 100 else 0, fun _ => 0, 0⟩

def journey : List (Op Ledger) := [.convert 5 6 40, .convert 5 5 10, .send 6 7 15, .arrive 7, .refund 6 5, .convert 5 6 1000]

example : (run plain world0 journey).supply = 30 ∧ (run plain world0 journey).tok moduleAddr = 30 ∧
    (run plain world0 journey).tok 7 = 15 ∧ (run plain world0 journey).tok 6 = 5 ∧ (run plain world0 journey).coins 6 = 20 := by
  decide +kernel

example : ∀ op ∈ journey, Others (fun (l : Ledger) a => l a) op := by
  intro op h
  simp only [journey, List.mem_cons, List.not_mem_nil, or_false] at h
  rcases h with h | h | h | h | h | h <;> subst h <;> trivial

/-- Like the ordinary contract, but takes as much again for account 66 whenever the module pays out. -/
def skimming : Token Ledger where
  balanceOf l a := some (l a)
  transfer w a b n := match move w.tok a b n with
    | none => none
    | some l => some ({ w with tok := if a = moduleAddr then (move l moduleAddr 66 n).getD l else l }, true, [[7]])

/-- The payout from escrow checks only what the receiver got: a contract that takes more from the escrow leaves coins unbacked. -/
theorem skimming_contract_unbacked :
    (run skimming world0 [.convert 5 6 40, .refund 6 10]).supply = 30 ∧
    (run skimming world0 [.convert 5 6 40, .refund 6 10]).tok moduleAddr = 20 := by decide +kernel

/-- While a transfer into escrow runs, sends the amount through a second conversion and on to account 9 (over the precompile for IBC
transfers, which converts first), and moves nothing for the first one. -/
def reentrant : Token Ledger where
  balanceOf l a := some (l a)
  transfer w a b n := match convertERC20 plain w a a n with
    | none => none
    | some w1 => some (step plain w1 (.send a 9 n), true, [[7]])

/-- The checks before and after the call are passed by a nested conversion: twice as many coins as escrowed tokens. -/
theorem reentrant_contract_unbacked :
    (run reentrant world0 [.convert 5 6 40]).supply = 80 ∧ (run reentrant world0 [.convert 5 6 40]).tok moduleAddr = 40 := by
  decide +kernel

end Erc20.Convert
