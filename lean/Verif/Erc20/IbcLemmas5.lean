import Verif.Erc20.IbcLemmas4
/-!
# IBC transfers of tokens: the invariant over all histories
-/
namespace Erc20.Ibc

open Erc20.Convert

theorem dueIn_open {p : In} (hat : p.at_ = .coming ∨ p.at_ = .refused) (c : Nat) : dueIn c (some p) = if p.chan = c then p.amount else 0 := by
  unfold dueIn
  dsimp only
  by_cases e : p.chan = c
  · rw [if_pos ⟨e, hat⟩, if_pos e]
  · rw [if_neg (fun h => e h.1), if_neg e]

theorem dueIn_closed {p : In} (h1 : p.at_ ≠ .coming) (h2 : p.at_ ≠ .refused) (c : Nat) : dueIn c (some p) = 0 := by
  unfold dueIn
  dsimp only
  rw [if_neg]
  rintro ⟨_, h | h⟩
  · exact h1 h
  · exact h2 h

theorem dueOut_open {p : Out} (hat : p.at_ = .going ∨ p.at_ = .refused) (c : Nat) :
    dueOut c (some p) = if p.chan = c then p.amount else 0 := by
  unfold dueOut
  dsimp only
  by_cases e : p.chan = c
  · rw [if_pos ⟨e, hat⟩, if_pos e]
  · rw [if_neg (fun h => e h.1), if_neg e]

theorem dueOut_closed {p : Out} (h1 : p.at_ ≠ .going) (h2 : p.at_ ≠ .refused) (c : Nat) : dueOut c (some p) = 0 := by
  unfold dueOut
  dsimp only
  rw [if_neg]
  rintro ⟨_, h | h⟩
  · exact h1 h
  · exact h2 h

theorem Safe.accept {s : St} (h : Safe s) (i : Nat) : Safe (accept s i) := by
  unfold Ibc.accept
  split
  · exact h
  rename_i p hp
  split
  · rename_i hat
    refine ⟨h.money.ext rfl rfl, h.books.out (i := i) (x := .received) hp rfl rfl rfl rfl rfl (fun c => ?_)⟩
    rw [dueOut_open (Or.inl hat), dueOut_closed (p := { p with at_ := .received }) (fun h => nomatch h) (fun h => nomatch h)]
    show setAt s.there p.chan _ c + 0 + s.w.coins (esc c) ≤ s.there c + _ + s.w.coins (esc c)
    unfold setAt
    by_cases e : p.chan = c
    · rw [if_pos e.symm, if_pos e, e]; omega
    · rw [if_neg (fun h => e h.symm), if_neg e]; omega
  · exact h

theorem Safe.refuse {s : St} (h : Safe s) (i : Nat) : Safe (refuse s i) := by
  unfold Ibc.refuse
  split
  · exact h
  rename_i p hp
  split
  · rename_i hat
    refine ⟨h.money.ext rfl rfl, h.books.out (i := i) (x := .refused) hp rfl rfl rfl rfl rfl (fun c => ?_)⟩
    rw [dueOut_open (Or.inl hat), dueOut_open (Or.inr rfl)]
    exact Nat.le_refl _
  · exact h

theorem Safe.ack {s : St} (h : Safe s) (i : Nat) : Safe (ack s i) := by
  unfold Ibc.ack
  split
  · exact h
  rename_i p hp
  split
  · rename_i hat
    refine ⟨h.money.ext rfl rfl, h.books.out (i := i) (x := .done) hp rfl rfl rfl rfl rfl (fun c => ?_)⟩
    rw [dueOut_closed (p := p) (by rw [hat]; exact fun h => nomatch h) (by rw [hat]; exact fun h => nomatch h),
      dueOut_closed (p := { p with at_ := .done }) (fun h => nomatch h) (fun h => nomatch h)]
    exact Nat.le_refl _
  split
  · rename_i hat
    exact h.refundStep hp (Or.inr hat)
  · exact h

theorem Safe.timeout {s : St} (h : Safe s) (i : Nat) : Safe (timeout s i) := by
  unfold Ibc.timeout
  split
  · exact h
  rename_i p hp
  split
  · rename_i hat
    exact h.refundStep hp (Or.inl hat)
  · exact h

theorem Safe.sendBack {s : St} (h : Safe s) (c r n : Nat) (self : Bool) (hr : ∀ d, r ≠ esc d) : Safe (sendBack s c r n self) := by
  unfold Ibc.sendBack
  split
  · exact h
  rename_i h0
  have hn : 0 < n := Nat.pos_of_ne_zero (fun e => h0 (Or.inl e))
  have ht : n ≤ s.there c := by have := fun e => h0 (Or.inr e); omega
  refine ⟨h.money.ext rfl rfl, ⟨fun i p hp => h.books.outs i p hp, fun i p hp => ?_, fun d => ?_⟩⟩
  · show i < s.nIn + 1 ∧ _
    have hp : (if i = s.nIn then some ({ chan := c, recipient := r, amount := n, self := self, at_ := .coming } : In) else s.inn i) = some p := hp
    split at hp
    · cases hp
      exact ⟨by omega, hr, hn⟩
    · obtain ⟨h1, h2⟩ := h.books.ins i p hp
      exact ⟨by omega, h2⟩
  · have ho := h.books.owed d
    unfold owed at ho ⊢
    dsimp only
    rw [sumTo]
    have e1 : sumTo (fun i => dueIn d (setAt s.inn s.nIn (some { chan := c, recipient := r, amount := n, self := self, at_ := .coming }) i)) s.nIn =
        sumTo (fun i => dueIn d (s.inn i)) s.nIn := sumTo_congr (fun i hi => by
          show dueIn d (if i = s.nIn then _ else _) = _
          rw [if_neg (by omega)])
    have e2 : dueIn d (setAt s.inn s.nIn (some { chan := c, recipient := r, amount := n, self := self, at_ := .coming }) s.nIn) =
        if c = d then n else 0 := by
      unfold setAt
      rw [if_pos rfl, dueIn_open (Or.inl rfl)]
    rw [e1, e2]
    unfold setAt
    by_cases e : c = d
    · subst e
      rw [if_pos rfl, if_pos rfl]
      omega
    · rw [if_neg (fun h => e h.symm), if_neg e]
      omega

theorem Safe.recv {s : St} (h : Safe s) (i : Nat) : Safe (recv s i) := by
  unfold Ibc.recv
  split
  · exact h
  rename_i p hp
  split
  · rename_i hat
    split
    · refine ⟨h.money.ext rfl rfl, h.books.inn (i := i) (x := .refused) hp rfl rfl rfl rfl rfl (fun c => ?_)⟩
      rw [dueIn_open (Or.inl hat), dueIn_open (Or.inr rfl)]
      exact Nat.le_refl _
    · rename_i s' hs'
      obtain ⟨_, hu, hn⟩ := h.books.ins i p hp
      obtain ⟨hm, h1, h2⟩ := receive_cases hu hn hs'
      have hmon : Money s' := by
        unfold receive at hs'
        rw [if_neg hm] at hs'
        split at hs'
        · cases hs'
        rename_i s1 hs1
        have := h.money.pay hs1
        unfold afterRecv at hs'
        split at hs'
        · cases hs'; exact this
        split at hs'
        · cases hs'
        split at hs'
        · cases hs'; exact this
        · exact this.toTokens hm hs'
      refine ⟨hmon.ext rfl rfl, ?_⟩
      rcases h2 with ⟨_, e⟩ | ⟨_, _, _, _, _, _, e⟩
      · subst e
        refine h.books.inn (i := i) (x := .delivered) hp rfl rfl rfl rfl rfl (fun c => ?_)
        rw [dueIn_open (Or.inl hat), dueIn_closed (p := { p with at_ := .delivered }) (fun h => nomatch h) (fun h => nomatch h)]
        have hm := moved_at (c := s.w.coins) (a := esc p.chan) (b := p.recipient) (n := p.amount) (by omega) (esc c)
        rw [if_neg (show ¬ esc c = p.recipient from fun e => hu c e.symm)] at hm
        show s.there c + 0 + _ ≤ s.there c + _ + moved s.w.coins (esc p.chan) p.recipient p.amount (esc c)
        by_cases e : p.chan = c
        · rw [e, if_pos rfl] at hm ⊢
          omega
        · rw [if_neg (fun e' => e (esc_inj e').symm)] at hm
          rw [if_neg e]
          omega
      · subst e
        refine h.books.inn (i := i) (x := .delivered) hp rfl rfl rfl rfl rfl (fun c => ?_)
        rw [dueIn_open (Or.inl hat), dueIn_closed (p := { p with at_ := .delivered }) (fun h => nomatch h) (fun h => nomatch h)]
        show s.there c + 0 + _ ≤ s.there c + _ + setCoins (setCoins s.w.coins (esc p.chan) _) p.recipient 0 (esc c)
        rw [setCoins_ne _ _ (fun e => hu c e.symm)]
        by_cases e : p.chan = c
        · subst e
          rw [if_pos rfl, setCoins_self]
          omega
        · rw [if_neg e, setCoins_ne _ _ (fun e' => e (esc_inj e').symm)]
          omega
  · exact h

theorem Safe.ackBack {s : St} (h : Safe s) (i : Nat) : Safe (ackBack s i) := by
  unfold Ibc.ackBack
  split
  · exact h
  rename_i p hp
  split
  · rename_i hat
    refine ⟨h.money.ext rfl rfl, h.books.inn (i := i) (x := .returned) hp rfl rfl rfl rfl rfl (fun c => ?_)⟩
    rw [dueIn_open (Or.inr hat), dueIn_closed (p := { p with at_ := .returned }) (fun h => nomatch h) (fun h => nomatch h)]
    show setAt s.there p.chan _ c + 0 + s.w.coins (esc c) ≤ s.there c + _ + s.w.coins (esc c)
    unfold setAt
    by_cases e : p.chan = c
    · rw [if_pos e.symm, if_pos e, e]; omega
    · rw [if_neg (fun h => e h.symm), if_neg e]; omega
  · exact h

theorem Safe.step {s : St} (h : Safe s) (op : Op) (ho : ∀ c r n self, op = .sendBack c r n self → ∀ d, r ≠ esc d) : Safe (step s op) := by
  cases op with
  | transfer c a n =>
    show Safe ((Ibc.transfer s c a n).getD s)
    cases e : Ibc.transfer s c a n with
    | none => exact h
    | some s' => exact h.transfer e
  | accept i => exact h.accept i
  | refuse i => exact h.refuse i
  | ack i => exact h.ack i
  | timeout i => exact h.timeout i
  | sendBack c r n self => exact h.sendBack c r n self (ho c r n self rfl)
  | recv i => exact h.recv i
  | ackBack i => exact h.ackBack i
  | pay a b n =>
    show Safe (payStep s a b n)
    unfold payStep
    split
    · exact h
    rename_i h1
    have hu : isUser a = true := by
      cases e : isUser a with
      | true => rfl
      | false => exact absurd (Or.inl e) h1
    cases e : Ibc.pay s a b n with
    | none => exact h
    | some s' => exact h.pay hu e
  | payTokens a b n =>
    show Safe (payTokens s a b n)
    unfold payTokens
    split
    · exact h
    rename_i h1
    have hu : isUser a = true := by
      cases e : isUser a with
      | true => rfl
      | false => exact absurd e h1
    rw [move_eq]
    split
    · exact h
    rename_i t ht
    split at ht
    · cases ht
    rename_i h2
    cases ht
    have hm := moved_at (c := s.w.tok.bal) (a := a) (b := b) (n := n) (by have := fun e => h2 (Or.inr e); omega) moduleAddr
    rw [if_neg (fun e => user_ne_module hu e.symm)] at hm
    have := h.money.backed
    refine ⟨⟨h.money.covered, ?_, h.money.locks⟩, h.books.same rfl rfl rfl rfl rfl (fun c => Nat.le_refl _)⟩
    show s.w.supply ≤ moved s.w.tok.bal a b n moduleAddr
    omega
  | convert a b n =>
    show Safe (Ibc.convert s a b n)
    unfold Ibc.convert
    split
    · exact h
    split
    · exact h
    rename_i w hw
    exact Safe.convert h hw
  | pause b => exact ⟨⟨h.money.covered, h.money.backed, h.money.locks⟩, h.books.same rfl rfl rfl rfl rfl (fun c => Nat.le_refl _)⟩
  | setOn b => exact ⟨h.money.ext rfl rfl, h.books.same rfl rfl rfl rfl rfl (fun c => Nat.le_refl _)⟩
  | setPair b => exact ⟨h.money.ext rfl rfl, h.books.same rfl rfl rfl rfl rfl (fun c => Nat.le_refl _)⟩
  | vest a b n =>
    show Safe (vest s a b n)
    unfold vest
    split
    · exact h
    rename_i h1
    have hu : isUser a = true := by
      cases e : isUser a with
      | true => rfl
      | false => exact absurd (Or.inl e) h1
    have hl : s.locked b = 0 := Decidable.not_not.1 (fun e => h1 (Or.inr (Or.inr e)))
    split
    · exact h
    rename_i s' hs'
    have hm := (h.pay hu hs').money
    obtain ⟨h2, e⟩ := pay_coins hs'
    subst e
    refine ⟨⟨hm.covered, hm.backed, fun x => ?_⟩, h.books.same rfl rfl rfl rfl rfl (fun c => ?_)⟩
    · show setAt s.locked b n x ≤ moved s.w.coins a b n x
      unfold setAt
      split
      · rename_i e
        subst e
        have := moved_at (c := s.w.coins) (a := a) (b := x) (n := n) (by omega) x
        rw [if_pos rfl] at this
        by_cases e : x = a
        · rw [if_pos e] at this
          subst e
          omega
        · rw [if_neg e] at this
          omega
      · exact hm.locks x
    · show s.w.coins (esc c) + setAt s.locked b n (esc c) ≤ moved s.w.coins a b n (esc c) + s.locked (esc c)
      have := moved_at (c := s.w.coins) (a := a) (b := b) (n := n) (by omega) (esc c)
      rw [if_neg (esc_ne_user hu c)] at this
      unfold setAt
      by_cases e : esc c = b
      · rw [if_pos e] at this ⊢
        omega
      · rw [if_neg e] at this ⊢
        omega
  | unlock a =>
    refine ⟨⟨h.money.covered, h.money.backed, fun x => ?_⟩, h.books.same rfl rfl rfl rfl rfl (fun c => ?_)⟩
    · show setAt s.locked a 0 x ≤ s.w.coins x
      unfold setAt
      split
      · exact Nat.zero_le _
      · exact h.money.locks x
    · show s.w.coins (esc c) + setAt s.locked a 0 (esc c) ≤ s.w.coins (esc c) + s.locked (esc c)
      unfold setAt
      split <;> omega

theorem sum_zero (l : List Nat) : (l.map (fun _ => 0)).sum = 0 := by
  induction l with
  | nil => rfl
  | cons x l ih => rw [List.map_cons, List.sum_cons, ih]

theorem safe_init (bal : Nat → Nat) : Safe (init bal) :=
  ⟨⟨fun l _ => Nat.le_of_eq (sum_zero l), Nat.zero_le _, fun _ => Nat.le_refl _⟩,
   ⟨fun _ _ h => (nomatch h), fun _ _ h => (nomatch h), fun _ => Nat.le_refl _⟩⟩

theorem Safe.run {s : St} : ∀ {ops : List Op}, Safe s → Ordinary ops → Safe (run s ops) := by
  intro ops
  induction ops generalizing s with
  | nil => exact fun h _ => h
  | cons op ops ih =>
    intro h ho
    exact ih (h.step op (fun c r n self e => ho c r n self (e ▸ List.mem_cons_self)))
      (fun c r n self hm => ho c r n self (List.mem_cons_of_mem _ hm))

theorem safe_run (bal : Nat → Nat) {ops : List Op} (ho : Ordinary ops) : Safe (run (init bal) ops) := (safe_init bal).run ho

end Erc20.Ibc
