import Verif.Erc20.Ibc
import Verif.Erc20.ConvertProps
/-!
# IBC transfers of tokens: what the pieces do, in closed form
-/
namespace Erc20.Ibc

open Erc20.Convert

/-- Balances after a payment. -/
def moved (c : Nat → Nat) (a b n : Nat) : Nat → Nat :=
  setCoins (setCoins c a (c a - n)) b (setCoins c a (c a - n) b + n)

theorem moved_at {c : Nat → Nat} {a b n : Nat} (h : n ≤ c a) (x : Nat) :
    moved c a b n x + (if x = a then n else 0) = c x + (if x = b then n else 0) := by
  unfold moved setCoins
  by_cases h1 : x = a <;> by_cases h2 : x = b
  · subst h1; subst h2; rw [if_pos rfl, if_pos rfl, if_pos rfl]; omega
  · subst h1; rw [if_neg h2, if_pos rfl, if_pos rfl, if_neg h2]; omega
  · subst h2; rw [if_pos rfl, if_neg h1, if_neg h1, if_pos rfl, Nat.add_zero]
  · rw [if_neg h2, if_neg h1, if_neg h1, if_neg h2]

theorem move_eq (t : Tok) (a b n : Nat) :
    move t a b n = if t.paused = true ∨ t.bal a < n then none else some { t with bal := moved t.bal a b n } := rfl

theorem pay_eq (s : St) (a b n : Nat) :
    pay s a b n = if s.w.coins a < s.locked a + n then none else some { s with w := { s.w with coins := moved s.w.coins a b n } } := rfl

theorem logs_ok (a b : Nat) : logsOk [[transferSig, a, b]] = true := rfl

theorem conv_eq (w : World Tok) (a b n : Nat) :
    convertERC20 std w a b n =
      if n = 0 ∨ w.tok.paused = true ∨ w.tok.bal a < n ∨ a = moduleAddr then none
      else some { tok := { w.tok with bal := moved w.tok.bal a moduleAddr n }, coins := setCoins w.coins b (w.coins b + n),
                  supply := w.supply + n } := by
  unfold convertERC20
  by_cases h0 : n = 0
  · rw [if_pos h0, if_pos (Or.inl h0)]
  rw [if_neg h0]
  dsimp only [std]
  rw [move_eq]
  by_cases h1 : w.tok.paused = true ∨ w.tok.bal a < n
  · rw [if_pos h1, if_pos]
    rcases h1 with h | h
    · exact Or.inr (Or.inl h)
    · exact Or.inr (Or.inr (Or.inl h))
  rw [if_neg h1]
  have h2 : n ≤ w.tok.bal a := by
    have := fun h => h1 (Or.inr h); omega
  dsimp only [convertAfter]
  rw [if_neg (by decide)]
  have hm := moved_at (b := moduleAddr) h2 moduleAddr
  rw [if_pos rfl] at hm
  by_cases ha : a = moduleAddr
  · rw [if_pos ha.symm] at hm
    rw [if_pos (by omega), if_pos (Or.inr (Or.inr (Or.inr ha)))]
  · rw [if_neg (fun h => ha h.symm)] at hm
    rw [if_neg (by omega), if_neg, if_neg, if_neg]
    · rfl
    · rintro (h | h | h | h)
      · exact h0 h
      · exact h1 (Or.inl h)
      · omega
      · exact ha h
    · rw [logs_ok]; decide
    · dsimp only [mintTo, setCoins]
      rw [if_pos rfl]
      exact fun h => h rfl

theorem back_eq (w : World Tok) {a n : Nat} (ha : a ≠ moduleAddr) (hn : n ≠ 0) :
    convertBack std w a a n =
      if w.tok.paused = true ∨ w.coins a < n ∨ w.tok.bal moduleAddr < n then none
      else some { tok := { w.tok with bal := moved w.tok.bal moduleAddr a n }, coins := setCoins w.coins a (w.coins a - n),
                  supply := w.supply - n } := by
  unfold convertBack
  rw [if_neg hn]
  dsimp only [std]
  unfold escrowCoins
  by_cases h1 : w.coins a < n
  · rw [if_pos h1, if_pos (Or.inr (Or.inl h1))]
  rw [if_neg h1]
  dsimp only
  rw [move_eq]
  by_cases h2 : w.tok.paused = true ∨ w.tok.bal moduleAddr < n
  · rw [if_pos h2, if_pos]
    rcases h2 with h | h
    · exact Or.inl h
    · exact Or.inr (Or.inr h)
  rw [if_neg h2]
  have h3 : n ≤ w.tok.bal moduleAddr := by
    have := fun h => h2 (Or.inr h); omega
  dsimp only [backAfter]
  rw [if_neg (by decide)]
  have hm := moved_at (b := a) h3 a
  rw [if_neg ha, if_pos rfl] at hm
  rw [if_neg (by omega)]
  unfold burn
  dsimp only
  have hs : ∀ (f : Nat → Nat) (v : Nat), setCoins f moduleAddr v moduleAddr = v := fun f v => if_pos rfl
  rw [if_neg (by rw [hs]; omega)]
  dsimp only
  rw [logs_ok, if_neg (by decide), if_neg]
  · congr 2
    funext x
    unfold setCoins
    by_cases hx : x = moduleAddr
    · subst hx
      simp only [if_true, if_neg (fun h => ha h.symm : ¬ moduleAddr = a)]
      omega
    · rw [if_neg hx, if_neg hx]
  · rintro (h | h | h)
    · exact h2 (Or.inl h)
    · exact h1 h
    · omega

theorem back_zero (w : World Tok) (a : Nat) : convertBack std w a a 0 = some w := rfl

end Erc20.Ibc
