import Verif.Erc20.IbcLemmas3
/-!
# IBC transfers of tokens: every operation keeps money and books
-/
namespace Erc20.Ibc

open Erc20.Convert

/-- The packet of a transfer. -/
def packet (s : St) (w : World Tok) (c a n : Nat) : St :=
  { s with w := w, out := setAt s.out s.nOut (some { chan := c, sender := a, amount := n, at_ := .going }), nOut := s.nOut + 1 }

theorem ship_eq (s : St) (c a n : Nat) :
    ship s c a n = if s.w.coins a < s.locked a + n then none
      else some (packet s { s.w with coins := moved s.w.coins a (esc c) n } c a n) := by
  unfold ship
  rw [pay_eq]
  by_cases h : s.w.coins a < s.locked a + n
  · rw [if_pos h, if_pos h]
  · rw [if_neg h, if_neg h]
    rfl

theorem fill_eq (s : St) (a n : Nat) (ha : a ≠ moduleAddr) (hn : s.w.coins a < n) :
    fill s a n = if s.w.tok.paused = true ∨ s.w.tok.bal a + s.w.coins a < n then none
      else some { s with w := { tok := { s.w.tok with bal := moved s.w.tok.bal a moduleAddr (n - s.w.coins a) },
                                coins := setCoins s.w.coins a n, supply := s.w.supply + (n - s.w.coins a) } } := by
  unfold fill
  rw [conv_eq]
  by_cases h : s.w.tok.paused = true ∨ s.w.tok.bal a + s.w.coins a < n
  · rw [if_pos h, if_pos]
    rcases h with h | h
    · exact Or.inr (Or.inl h)
    · exact Or.inr (Or.inr (Or.inl (by omega)))
  · rw [if_neg h, if_neg]
    · dsimp only
      rw [Nat.add_sub_cancel' (Nat.le_of_lt hn)]
    · rintro (e | e | e | e)
      · omega
      · exact h (Or.inl e)
      · exact h (Or.inr (by omega))
      · exact ha e

/-- What a successful transfer did. -/
theorem transfer_cases {s s' : St} {c a n : Nat} (h : transfer s c a n = some s') :
    isUser a = true ∧ 0 < n ∧
      ((s.locked a + n ≤ s.w.coins a ∧ s' = packet s { s.w with coins := moved s.w.coins a (esc c) n } c a n) ∨
       (s.on = true ∧ s.pair = true ∧ s.w.coins a < n ∧ s.locked a = 0 ∧ s.w.tok.paused = false ∧ n ≤ s.w.tok.bal a + s.w.coins a ∧
        s' = packet s { tok := { s.w.tok with bal := moved s.w.tok.bal a moduleAddr (n - s.w.coins a) },
                        coins := moved (setCoins s.w.coins a n) a (esc c) n, supply := s.w.supply + (n - s.w.coins a) } c a n)) := by
  unfold transfer at h
  split at h
  · cases h
  rename_i h0
  have hu : isUser a = true := by
    cases e : isUser a with
    | true => rfl
    | false => exact absurd (Or.inl e) h0
  have hn : 0 < n := Nat.pos_of_ne_zero (fun e => h0 (Or.inr e))
  refine ⟨hu, hn, ?_⟩
  have direct : ship s c a n = some s' →
      s.locked a + n ≤ s.w.coins a ∧ s' = packet s { s.w with coins := moved s.w.coins a (esc c) n } c a n := by
    intro h
    rw [ship_eq] at h
    split at h
    · cases h
    · cases h
      exact ⟨by omega, rfl⟩
  split at h
  · exact Or.inl (direct h)
  rename_i h1
  split at h
  · exact Or.inl (direct h)
  rename_i h2
  right
  have hlt : s.w.coins a < n := by omega
  rw [fill_eq _ _ _ (user_ne_module hu) hlt] at h
  split at h
  · cases h
  rename_i s1 hs1
  split at hs1
  · cases hs1
  rename_i h3
  cases hs1
  rw [ship_eq] at h
  dsimp only at h
  split at h
  · cases h
  rename_i h4
  rw [setCoins_self] at h4
  cases h
  refine ⟨?_, ?_, hlt, by omega, ?_, ?_, rfl⟩
  · cases e : s.on with
    | true => rfl
    | false => exact absurd (Or.inr e) h1
  · cases e : s.pair with
    | true => rfl
    | false => exact absurd (Or.inl e) h1
  · cases e : s.w.tok.paused with
    | false => rfl
    | true => exact absurd (Or.inl e) h3
  · have := fun e => h3 (Or.inr e); omega

theorem owed_packet (s : St) (w : World Tok) (c a n d : Nat) :
    owed (packet s w c a n) d = owed s d + if c = d then n else 0 := by
  unfold owed packet
  dsimp only
  rw [sumTo]
  have e1 : sumTo (fun i => dueOut d (setAt s.out s.nOut (some { chan := c, sender := a, amount := n, at_ := .going }) i)) s.nOut =
      sumTo (fun i => dueOut d (s.out i)) s.nOut := sumTo_congr (fun i hi => by
        show dueOut d (if i = s.nOut then _ else _) = _
        rw [if_neg (by omega)])
  have e2 : dueOut d (setAt s.out s.nOut (some { chan := c, sender := a, amount := n, at_ := .going }) s.nOut) = if c = d then n else 0 := by
    unfold setAt
    rw [if_pos rfl]
    unfold dueOut
    dsimp only
    by_cases hc : c = d
    · rw [if_pos ⟨hc, Or.inl rfl⟩, if_pos hc]
    · rw [if_neg (fun h => hc h.1), if_neg hc]
  rw [e1, e2]
  omega

theorem Books.packet {s : St} {w : World Tok} {c a n : Nat} (h : Books s) (hu : isUser a = true) (hn : 0 < n)
    (hc : ∀ d, w.coins (esc d) = s.w.coins (esc d) + if c = d then n else 0) : Books (packet s w c a n) := by
  refine ⟨fun i p hp => ?_, fun i p hp => h.ins i p hp, fun d => ?_⟩
  · show i < s.nOut + 1 ∧ _
    have hp : (if i = s.nOut then some ({ chan := c, sender := a, amount := n, at_ := .going } : Out) else s.out i) = some p := hp
    split at hp
    · cases hp
      exact ⟨by omega, hu, hn⟩
    · obtain ⟨h1, h2⟩ := h.outs i p hp
      exact ⟨by omega, h2⟩
  · rw [owed_packet]
    have := h.owed d
    have e := hc d
    show _ + s.locked (esc d) ≤ w.coins (esc d)
    omega

structure Safe (s : St) : Prop where
  money : Money s
  books : Books s

theorem Money.ext {s s' : St} (h : Money s) (h1 : s'.w = s.w) (h2 : s'.locked = s.locked) : Money s' :=
  ⟨by rw [h1]; exact h.covered, by rw [h1]; exact h.backed, fun a => by rw [h1, h2]; exact h.locks a⟩

theorem Safe.transfer {s s' : St} {c a n : Nat} (h : Safe s) (ht : transfer s c a n = some s') : Safe s' := by
  obtain ⟨hu, hn, h1 | h1⟩ := transfer_cases ht
  · obtain ⟨h1, e⟩ := h1
    have hp : pay s a (esc c) n = some { s with w := { s.w with coins := moved s.w.coins a (esc c) n } } := by
      rw [pay_eq, if_neg (by omega)]
    subst e
    refine ⟨(h.money.pay hp).ext rfl rfl, h.books.packet hu hn (fun d => ?_)⟩
    have hm := moved_at (c := s.w.coins) (a := a) (b := esc c) (n := n) (by omega) (esc d)
    rw [if_neg (esc_ne_user hu d)] at hm
    show moved s.w.coins a (esc c) n (esc d) = _
    by_cases e : c = d
    · subst e
      rw [if_pos rfl] at hm ⊢
      omega
    · rw [if_neg (fun e' => e (esc_inj e').symm)] at hm
      rw [if_neg e]
      omega
  · obtain ⟨_, _, h1, h2, h3, h4, e⟩ := h1
    have hf := fill_eq s a n (user_ne_module hu) h1
    rw [if_neg (by rintro (e | e); · rw [h3] at e; cases e
                   · omega)] at hf
    unfold fill at hf
    split at hf
    · cases hf
    rename_i w hw
    have hm := h.money.convert hw
    cases hf
    have hp := pay_eq { s with
      w := { tok := { s.w.tok with bal := moved s.w.tok.bal a moduleAddr (n - s.w.coins a) }, coins := setCoins s.w.coins a n,
             supply := s.w.supply + (n - s.w.coins a) } } a (esc c) n
    rw [if_neg (by show ¬ setCoins s.w.coins a n a < s.locked a + n; rw [setCoins_self]; omega)] at hp
    subst e
    refine ⟨(hm.pay hp).ext rfl rfl, h.books.packet hu hn (fun d => ?_)⟩
    have hm := moved_at (c := setCoins s.w.coins a n) (a := a) (b := esc c) (n := n) (by rw [setCoins_self]; omega) (esc d)
    rw [if_neg (esc_ne_user hu d), setCoins_ne _ _ (esc_ne_user hu d)] at hm
    show moved (setCoins s.w.coins a n) a (esc c) n (esc d) = _
    by_cases e : c = d
    · subst e
      rw [if_pos rfl] at hm ⊢
      omega
    · rw [if_neg (fun e' => e (esc_inj e').symm)] at hm
      rw [if_neg e]
      omega

/-- Coins that a user pays never lessen what is in the accounts of channels. -/
theorem Safe.pay {s s' : St} {a b n : Nat} (h : Safe s) (hu : isUser a = true) (hp : pay s a b n = some s') : Safe s' := by
  refine ⟨h.money.pay hp, ?_⟩
  obtain ⟨h1, e⟩ := pay_coins hp
  subst e
  refine h.books.same rfl rfl rfl rfl rfl (fun c => ?_)
  have hm := moved_at (c := s.w.coins) (a := a) (b := b) (n := n) (by omega) (esc c)
  rw [if_neg (esc_ne_user hu c)] at hm
  show _ ≤ moved s.w.coins a b n (esc c) + _
  dsimp only
  omega

theorem Safe.convert {s : St} {w : World Tok} {a b n : Nat} (h : Safe s) (hp : convertERC20 std s.w a b n = some w) :
    Safe { s with w := w } := by
  refine ⟨h.money.convert hp, ?_⟩
  rw [conv_eq] at hp
  split at hp
  · cases hp
  cases hp
  refine h.books.same rfl rfl rfl rfl rfl (fun c => ?_)
  show _ ≤ setCoins s.w.coins b _ (esc c) + _
  unfold setCoins
  split
  · rename_i e; rw [e]; dsimp only; omega
  · dsimp only; omega

theorem Safe.refundStep {s : St} {i : Nat} {p : Out} (h : Safe s) (hp : s.out i = some p) (hat : p.at_ = .going ∨ p.at_ = .refused) :
    Safe (refundStep s i p) := by
  unfold Ibc.refundStep
  split
  · exact h
  rename_i s' hs'
  obtain ⟨_, hu, hn⟩ := h.books.outs i p hp
  have hmon : Money s' := by
    unfold refund at hs'
    split at hs'
    · cases hs'
    rename_i s1 hs1
    have := h.money.pay hs1
    split at hs'
    · exact this.toTokens (user_ne_module hu) hs'
    · cases hs'; exact this
  refine ⟨hmon.ext rfl rfl, ?_⟩
  obtain ⟨h1, h2⟩ := refund_cases hu hn hs'
  have due : ∀ c, dueOut c (some p) = if p.chan = c then p.amount else 0 := by
    intro c
    unfold dueOut
    dsimp only
    by_cases e : p.chan = c
    · rw [if_pos ⟨e, hat⟩, if_pos e]
    · rw [if_neg (fun h => e h.1), if_neg e]
  have due' : ∀ c, dueOut c (some { p with at_ := .refunded }) = 0 := by
    intro c
    unfold dueOut
    dsimp only
    rw [if_neg (by rintro ⟨_, h | h⟩ <;> cases h)]
  rcases h2 with ⟨_, e⟩ | ⟨_, _, _, _, e⟩
  · subst e
    refine h.books.out (i := i) (x := .refunded) hp rfl rfl rfl rfl rfl (fun c => ?_)
    rw [due, due']
    have hm := moved_at (c := s.w.coins) (a := esc p.chan) (b := p.sender) (n := p.amount) (by omega) (esc c)
    rw [if_neg (esc_ne_user hu c)] at hm
    show s.there c + 0 + _ ≤ s.there c + _ + moved s.w.coins (esc p.chan) p.sender p.amount (esc c)
    by_cases e : p.chan = c
    · rw [e, if_pos rfl] at hm ⊢
      omega
    · rw [if_neg (fun e' => e (esc_inj e').symm)] at hm
      rw [if_neg e]
      omega
  · subst e
    refine h.books.out (i := i) (x := .refunded) hp rfl rfl rfl rfl rfl (fun c => ?_)
    rw [due, due']
    show s.there c + 0 + _ ≤ s.there c + _ + setCoins s.w.coins (esc p.chan) _ (esc c)
    by_cases e : p.chan = c
    · subst e
      rw [if_pos rfl, setCoins_self]
      omega
    · rw [if_neg e, setCoins_ne _ _ (fun e' => e (esc_inj e').symm)]
      omega

end Erc20.Ibc
