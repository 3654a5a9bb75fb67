import Verif.Erc20.IbcLemmas
import Verif.Erc20.IbcSpec
/-!
# IBC transfers of tokens: money and books
-/
namespace Erc20.Ibc

open Erc20.Convert

/-- All accounts together have at most `s`. -/
def Covered (c : Nat → Nat) (s : Nat) : Prop := ∀ l : List Nat, l.Nodup → (l.map c).sum ≤ s

theorem sum_set_not {c : Nat → Nat} {a v : Nat} : ∀ {l : List Nat}, a ∉ l → (l.map (setCoins c a v)).sum = (l.map c).sum
  | [], _ => rfl
  | x :: l, h => by
    have hx : x ≠ a := fun e => h (e ▸ List.mem_cons_self)
    rw [List.map_cons, List.map_cons, List.sum_cons, List.sum_cons, sum_set_not (fun h' => h (List.mem_cons_of_mem _ h')),
      setCoins_ne _ _ hx]

theorem sum_set {c : Nat → Nat} {a v : Nat} : ∀ {l : List Nat}, l.Nodup → a ∈ l →
    (l.map (setCoins c a v)).sum + c a = (l.map c).sum + v
  | [], _, h => nomatch h
  | x :: l, hl, h => by
    rw [List.map_cons, List.map_cons, List.sum_cons, List.sum_cons]
    have hl' := List.nodup_cons.1 hl
    by_cases hx : x = a
    · subst hx
      rw [sum_set_not hl'.1, setCoins_self]
      omega
    · rcases List.mem_cons.1 h with h' | h'
      · exact absurd h'.symm hx
      · have := sum_set (c := c) (v := v) hl'.2 h'
        rw [setCoins_ne _ _ hx]
        omega

theorem Covered.add {c : Nat → Nat} {s : Nat} (h : Covered c s) (b n : Nat) : Covered (setCoins c b (c b + n)) (s + n) := by
  intro l hl
  have := h l hl
  by_cases hb : b ∈ l
  · have := sum_set (c := c) (v := c b + n) hl hb
    omega
  · rw [sum_set_not hb]
    omega

theorem Covered.sub {c : Nat → Nat} {s : Nat} (h : Covered c s) {a n : Nat} (hn : n ≤ c a) : Covered (setCoins c a (c a - n)) (s - n) := by
  intro l hl
  by_cases ha : a ∈ l
  · have := h l hl
    have := sum_set (c := c) (v := c a - n) hl ha
    omega
  · have := h (a :: l) (List.nodup_cons.2 ⟨ha, hl⟩)
    rw [List.map_cons, List.sum_cons] at this
    rw [sum_set_not ha]
    omega

theorem Covered.one {c : Nat → Nat} {s : Nat} (h : Covered c s) (a : Nat) : c a ≤ s := by
  have := h [a] (List.nodup_cons.2 ⟨(fun h => nomatch h), List.nodup_nil⟩)
  rw [List.map_cons, List.sum_cons] at this
  omega

theorem Covered.moved {c : Nat → Nat} {s : Nat} (h : Covered c s) {a n : Nat} (b : Nat) (hn : n ≤ c a) : Covered (moved c a b n) s := by
  have h1 := (h.sub hn).add b n
  have := h.one a
  rw [Nat.sub_add_cancel (by omega)] at h1
  exact h1

/-- The coins are covered by their supply, the supply by tokens of the module, and locked coins are there. -/
structure Money (s : St) : Prop where
  covered : Covered s.w.coins s.w.supply
  backed : s.w.supply ≤ s.w.tok.bal moduleAddr
  locks : ∀ a, s.locked a ≤ s.w.coins a

theorem Money.pay {s s' : St} {a b n : Nat} (h : Money s) (hp : pay s a b n = some s') : Money s' := by
  rw [pay_eq] at hp
  split at hp
  · cases hp
  rename_i h1
  cases hp
  have hn : n ≤ s.w.coins a := by omega
  refine ⟨h.covered.moved b hn, h.backed, fun x => ?_⟩
  have hm := moved_at (b := b) hn x
  have hx := h.locks x
  show s.locked x ≤ Ibc.moved s.w.coins a b n x
  by_cases e : x = a
  · rw [if_pos e] at hm
    subst e
    omega
  · rw [if_neg e] at hm
    omega

theorem pay_coins {s s' : St} {a b n : Nat} (hp : pay s a b n = some s') :
    s.locked a + n ≤ s.w.coins a ∧ s' = { s with w := { s.w with coins := moved s.w.coins a b n } } := by
  rw [pay_eq] at hp
  split at hp
  · cases hp
  · cases hp
    exact ⟨by omega, rfl⟩

/-- What conversion to tokens does. -/
theorem toTokens_eq (s : St) {a : Nat} (n : Nat) (ha : a ≠ moduleAddr) :
    toTokens s a n =
      if n = 0 then some s
      else if s.w.coins a < s.locked a + n ∨ s.w.tok.paused = true ∨ s.w.tok.bal moduleAddr < n then none
      else some { s with w := { tok := { s.w.tok with bal := moved s.w.tok.bal moduleAddr a n },
                                coins := setCoins s.w.coins a (s.w.coins a - n), supply := s.w.supply - n } } := by
  unfold toTokens
  by_cases hn : n = 0
  · subst hn
    rw [if_neg (fun h => h.1 rfl), if_pos rfl, back_zero]
  rw [if_neg hn, back_eq _ ha hn]
  by_cases h1 : s.w.coins a < s.locked a + n
  · rw [if_pos ⟨hn, h1⟩, if_pos (Or.inl h1)]
  rw [if_neg (fun h => h1 h.2)]
  by_cases h2 : s.w.tok.paused = true ∨ s.w.tok.bal moduleAddr < n
  · rw [if_pos, if_pos (Or.inr h2)]
    rcases h2 with h | h
    · exact Or.inl h
    · exact Or.inr (Or.inr h)
  · rw [if_neg, if_neg]
    · rintro (h | h)
      · exact h1 h
      · exact h2 h
    · rintro (h | h | h)
      · exact h2 (Or.inl h)
      · omega
      · exact h2 (Or.inr h)

theorem toTokens_some {s s' : St} {a n : Nat} (ha : a ≠ moduleAddr) (h : toTokens s a n = some s') :
    s.locked a + n ≤ s.w.coins a ∨ n = 0 := by
  rw [toTokens_eq s n ha] at h
  split at h
  · exact Or.inr ‹_›
  · split at h
    · cases h
    · rename_i h2
      exact Or.inl (by have := fun h => h2 (Or.inl h); omega)

theorem Money.toTokens {s s' : St} {a n : Nat} (h : Money s) (ha : a ≠ moduleAddr) (hp : toTokens s a n = some s') : Money s' := by
  rw [toTokens_eq s n ha] at hp
  split at hp
  · cases hp; exact h
  split at hp
  · cases hp
  rename_i h2
  cases hp
  have h1 : s.locked a + n ≤ s.w.coins a := by have := fun h => h2 (Or.inl h); omega
  have h3 : n ≤ s.w.tok.bal moduleAddr := by have := fun h => h2 (Or.inr (Or.inr h)); omega
  have hm := moved_at (b := a) h3 moduleAddr
  rw [if_pos rfl, if_neg (fun e => ha e.symm)] at hm
  have hb := h.backed
  have h1c := h.covered.one a
  refine ⟨h.covered.sub (by omega), ?_, fun x => ?_⟩
  · show s.w.supply - n ≤ moved s.w.tok.bal moduleAddr a n moduleAddr
    omega
  · show s.locked x ≤ setCoins s.w.coins a (s.w.coins a - n) x
    have hx := h.locks x
    by_cases e : x = a
    · subst e; rw [setCoins_self]; omega
    · rw [setCoins_ne _ _ e]; exact hx

theorem Money.convert {s : St} {w : World Tok} {a b n : Nat} (h : Money s) (hp : convertERC20 std s.w a b n = some w) :
    Money { s with w := w } := by
  rw [conv_eq] at hp
  split at hp
  · cases hp
  rename_i h1
  cases hp
  have ha : a ≠ moduleAddr := fun e => h1 (Or.inr (Or.inr (Or.inr e)))
  have hn : n ≤ s.w.tok.bal a := by
    have := fun e => h1 (Or.inr (Or.inr (Or.inl e))); omega
  have hm := moved_at (b := moduleAddr) hn moduleAddr
  rw [if_pos rfl, if_neg (fun e => ha e.symm)] at hm
  have hb := h.backed
  refine ⟨h.covered.add b n, ?_, fun x => ?_⟩
  · show s.w.supply + n ≤ moved s.w.tok.bal a moduleAddr n moduleAddr
    omega
  · show s.locked x ≤ setCoins s.w.coins b (s.w.coins b + n) x
    have hx := h.locks x
    by_cases e : x = b
    · subst e; rw [setCoins_self]; omega
    · rw [setCoins_ne _ _ e]; exact hx

theorem sumTo_congr {f g : Nat → Nat} : ∀ {n : Nat}, (∀ i, i < n → f i = g i) → sumTo f n = sumTo g n
  | 0, _ => rfl
  | n + 1, h => by
    unfold sumTo
    rw [sumTo_congr (fun i hi => h i (Nat.lt_succ_of_lt hi)), h n (Nat.lt_succ_self n)]

theorem sumTo_set {f g : Nat → Nat} {i : Nat} : ∀ {n : Nat}, i < n → (∀ j, j ≠ i → g j = f j) → sumTo g n + f i = sumTo f n + g i
  | 0, h, _ => absurd h (Nat.not_lt_zero _)
  | n + 1, h, hg => by
    unfold sumTo
    by_cases e : i = n
    · subst e
      rw [sumTo_congr (fun j hj => hg j (by omega))]
      omega
    · have := sumTo_set (n := n) (by omega) hg
      rw [hg n (fun e' => e e'.symm)]
      omega

/-- Packets are numbered in order, their senders and recipients are users, and the account of each channel covers what it stands for. -/
structure Books (s : St) : Prop where
  outs : ∀ i p, s.out i = some p → i < s.nOut ∧ isUser p.sender = true ∧ 0 < p.amount
  ins : ∀ i p, s.inn i = some p → i < s.nIn ∧ (∀ d, p.recipient ≠ esc d) ∧ 0 < p.amount
  owed : ∀ c, Ibc.owed s c + s.locked (esc c) ≤ s.w.coins (esc c)

theorem Books.same {s s' : St} (h : Books s) (h1 : s'.out = s.out) (h2 : s'.nOut = s.nOut) (h3 : s'.inn = s.inn) (h4 : s'.nIn = s.nIn)
    (h5 : s'.there = s.there)
    (hc : ∀ c, s.w.coins (esc c) + s'.locked (esc c) ≤ s'.w.coins (esc c) + s.locked (esc c)) : Books s' := by
  refine ⟨fun i p hp => ?_, fun i p hp => ?_, fun c => ?_⟩
  · rw [h2]; exact h.outs i p (h1 ▸ hp)
  · rw [h4]; exact h.ins i p (h3 ▸ hp)
  · have e : Ibc.owed s' c = Ibc.owed s c := by unfold Ibc.owed; rw [h1, h2, h3, h4, h5]
    have := h.owed c
    have := hc c
    omega

theorem esc_ne_user {a : Nat} (h : isUser a = true) (c : Nat) : esc c ≠ a := by
  unfold isUser at h
  rw [Bool.and_eq_true] at h
  have h2 := of_decide_eq_true h.2
  unfold esc
  omega

theorem user_ne_module {a : Nat} (h : isUser a = true) : a ≠ moduleAddr := by
  unfold isUser at h
  rw [Bool.and_eq_true] at h
  exact of_decide_eq_true h.1

theorem esc_ne_module (c : Nat) : esc c ≠ moduleAddr := by unfold esc moduleAddr; omega

theorem esc_inj {c d : Nat} (h : esc c = esc d) : c = d := by unfold esc at h; omega

end Erc20.Ibc
