import Verif.Erc20.IbcLemmas5
/-!
# IBC transfers of tokens: holdings, and the life of a packet
-/
namespace Erc20.Ibc

open Erc20.Convert

theorem pay_holding {s s' : St} {a b n : Nat} (h : pay s a b n = some s') (x : Nat) :
    holding s' x + (if x = a then n else 0) = holding s x + (if x = b then n else 0) := by
  obtain ⟨h1, e⟩ := pay_coins h
  subst e
  have := moved_at (c := s.w.coins) (a := a) (b := b) (n := n) (by omega) x
  unfold holding
  dsimp only
  omega

/-- Conversion to tokens changes nobody's holding. -/
theorem toTokens_holding {s s' : St} {a n : Nat} (ha : a ≠ moduleAddr) (h : toTokens s a n = some s') {x : Nat} (hx : x ≠ moduleAddr) :
    holding s' x = holding s x := by
  rw [toTokens_eq s n ha] at h
  split at h
  · cases h; rfl
  split at h
  · cases h
  rename_i h2
  cases h
  have hc : n ≤ s.w.coins a := by have := fun e => h2 (Or.inl e); omega
  have hb : n ≤ s.w.tok.bal moduleAddr := by have := fun e => h2 (Or.inr (Or.inr e)); omega
  have hm := moved_at (c := s.w.tok.bal) (a := moduleAddr) (b := a) (n := n) hb x
  rw [if_neg hx] at hm
  unfold holding
  dsimp only
  unfold setCoins
  by_cases e : x = a
  · rw [if_pos e] at hm ⊢
    rw [e] at hm ⊢
    omega
  · rw [if_neg e] at hm ⊢
    omega

theorem refund_holding {s s' : St} {p : Out} (hp : p.sender ≠ moduleAddr) (h : refund s p = some s') {x : Nat} (hx : x ≠ moduleAddr) :
    holding s' x + (if x = esc p.chan then p.amount else 0) = holding s x + (if x = p.sender then p.amount else 0) := by
  unfold refund at h
  split at h
  · cases h
  rename_i s1 hs1
  have h1 := pay_holding hs1 x
  split at h
  · rw [toTokens_holding hp h hx]; exact h1
  · cases h; exact h1

theorem receive_holding {s s' : St} {p : In} (h : receive s p = some s') {x : Nat} (hx : x ≠ moduleAddr) :
    holding s' x + (if x = esc p.chan then p.amount else 0) = holding s x + (if x = p.recipient then p.amount else 0) := by
  unfold receive at h
  split at h
  · cases h
  rename_i hr
  split at h
  · cases h
  rename_i s1 hs1
  have h1 := pay_holding hs1 x
  unfold afterRecv at h
  split at h
  · cases h; exact h1
  split at h
  · cases h
  split at h
  · cases h; exact h1
  · rw [toTokens_holding hr h hx]; exact h1

/-- Neither refunds nor arrivals touch the packets. -/
theorem toTokens_out {s s' : St} {a n : Nat} (ha : a ≠ moduleAddr) (h : toTokens s a n = some s') :
    s'.out = s.out ∧ s'.nOut = s.nOut ∧ s'.inn = s.inn ∧ s'.nIn = s.nIn := by
  rw [toTokens_eq s n ha] at h
  split at h
  · cases h; exact ⟨rfl, rfl, rfl, rfl⟩
  split at h
  · cases h
  · cases h; exact ⟨rfl, rfl, rfl, rfl⟩

theorem refund_out {s s' : St} {p : Out} (hp : p.sender ≠ moduleAddr) (h : refund s p = some s') :
    s'.out = s.out ∧ s'.nOut = s.nOut ∧ s'.inn = s.inn ∧ s'.nIn = s.nIn := by
  unfold refund at h
  split at h
  · cases h
  rename_i s1 hs1
  have e := (pay_coins hs1).2
  subst e
  split at h
  · have := toTokens_out hp h; exact this
  · cases h; exact ⟨rfl, rfl, rfl, rfl⟩

theorem receive_out {s s' : St} {p : In} (h : receive s p = some s') :
    s'.out = s.out ∧ s'.nOut = s.nOut ∧ s'.inn = s.inn ∧ s'.nIn = s.nIn := by
  unfold receive at h
  split at h
  · cases h
  rename_i hr
  split at h
  · cases h
  rename_i s1 hs1
  have e := (pay_coins hs1).2
  subst e
  unfold afterRecv at h
  split at h
  · cases h; exact ⟨rfl, rfl, rfl, rfl⟩
  split at h
  · cases h
  split at h
  · cases h; exact ⟨rfl, rfl, rfl, rfl⟩
  · have := toTokens_out hr h; exact this

/-- Packets that went out were sent by users, and have numbers below the next one. -/
def Sent (s : St) : Prop := ∀ i p, s.out i = some p → i < s.nOut ∧ isUser p.sender = true

/-- Where a packet can be next. -/
inductive Next : OutAt → OutAt → Prop where
  | same (x : OutAt) : Next x x
  | received : Next .going .received
  | refused : Next .going .refused
  | timeout : Next .going .refunded
  | refund : Next .refused .refunded
  | done : Next .received .done

/-- The packets of `s` are still there in `s'`, each at most one place further; new ones are sent by users. -/
def Onward (s s' : St) : Prop :=
  (∀ i p, s.out i = some p → ∃ q, s'.out i = some q ∧ q.chan = p.chan ∧ q.sender = p.sender ∧ q.amount = p.amount ∧ Next p.at_ q.at_) ∧ Sent s'

theorem Onward.refl {s s' : St} (h : Sent s) (h1 : s'.out = s.out) (h2 : s'.nOut = s.nOut) : Onward s s' :=
  ⟨fun i p hp => ⟨p, by rw [h1]; exact hp, rfl, rfl, rfl, .same _⟩, fun i p hp => by rw [h2]; rw [h1] at hp; exact h i p hp⟩

theorem Onward.set {s s' : St} {i : Nat} {p : Out} {x : OutAt} (h : Sent s) (hp : s.out i = some p) (hx : Next p.at_ x)
    (h1 : s'.out = setAt s.out i (some { p with at_ := x })) (h2 : s'.nOut = s.nOut) : Onward s s' := by
  refine ⟨fun j q hq => ?_, fun j q hq => ?_⟩
  · rw [h1]
    unfold setAt
    by_cases e : j = i
    · subst e
      rw [hp] at hq
      cases hq
      exact ⟨_, if_pos rfl, rfl, rfl, rfl, hx⟩
    · exact ⟨q, by rw [if_neg e]; exact hq, rfl, rfl, rfl, .same _⟩
  · rw [h2]
    rw [h1] at hq
    unfold setAt at hq
    split at hq
    · cases hq
      rename_i e
      subst e
      exact h j p hp
    · exact h j q hq

theorem Onward.packet {s : St} (h : Sent s) (w : World Tok) (c : Nat) {a : Nat} (n : Nat) (hu : isUser a = true) : Onward s (packet s w c a n) := by
  refine ⟨fun j q hq => ⟨q, ?_, rfl, rfl, rfl, .same _⟩, fun j q hq => ?_⟩
  · have := (h j q hq).1
    show (if j = s.nOut then _ else s.out j) = _
    rw [if_neg (by omega)]
    exact hq
  · have hq : (if j = s.nOut then some ({ chan := c, sender := a, amount := n, at_ := .going } : Out) else s.out j) = some q := hq
    show j < s.nOut + 1 ∧ _
    split at hq
    · cases hq
      exact ⟨by omega, hu⟩
    · have := h j q hq
      exact ⟨by omega, this.2⟩

theorem Onward.refundStep {s : St} (h : Sent s) {i : Nat} {p : Out} (hp : s.out i = some p) (hat : p.at_ = .going ∨ p.at_ = .refused) :
    Onward s (refundStep s i p) := by
  unfold Ibc.refundStep
  split
  · exact .refl h rfl rfl
  rename_i s' hs'
  obtain ⟨h1, h2, _⟩ := refund_out (user_ne_module (h i p hp).2) hs'
  refine .set (x := .refunded) h hp ?_ ?_ h2
  · rcases hat with e | e <;> rw [e]
    · exact .timeout
    · exact .refund
  · show setAt s'.out _ _ = _
    rw [h1]

theorem onward_step {s : St} (h : Sent s) (op : Op) : Onward s (step s op) := by
  cases op with
  | transfer c a n =>
    show Onward s ((transfer s c a n).getD s)
    cases e : transfer s c a n with
    | none => exact .refl h rfl rfl
    | some s' =>
      obtain ⟨hu, hn, ⟨_, e⟩ | ⟨_, _, _, _, _, _, e⟩⟩ := transfer_cases e
      · subst e; exact .packet h _ _ _ hu
      · subst e; exact .packet h _ _ _ hu
  | accept i =>
    show Onward s (accept s i)
    unfold accept
    split
    · exact .refl h rfl rfl
    rename_i p hp
    split
    · rename_i hat
      exact .set (x := .received) h hp (hat ▸ .received) rfl rfl
    · exact .refl h rfl rfl
  | refuse i =>
    show Onward s (refuse s i)
    unfold refuse
    split
    · exact .refl h rfl rfl
    rename_i p hp
    split
    · rename_i hat
      exact .set (x := .refused) h hp (hat ▸ .refused) rfl rfl
    · exact .refl h rfl rfl
  | ack i =>
    show Onward s (ack s i)
    unfold ack
    split
    · exact .refl h rfl rfl
    rename_i p hp
    split
    · rename_i hat
      exact .set (x := .done) h hp (hat ▸ .done) rfl rfl
    split
    · rename_i hat
      exact .refundStep h hp (Or.inr hat)
    · exact .refl h rfl rfl
  | timeout i =>
    show Onward s (timeout s i)
    unfold timeout
    split
    · exact .refl h rfl rfl
    rename_i p hp
    split
    · rename_i hat
      exact .refundStep h hp (Or.inl hat)
    · exact .refl h rfl rfl
  | sendBack c r n self =>
    show Onward s (sendBack s c r n self)
    unfold sendBack
    split <;> exact .refl h rfl rfl
  | recv i =>
    show Onward s (recv s i)
    unfold recv
    split
    · exact .refl h rfl rfl
    split
    · split
      · exact .refl h rfl rfl
      · rename_i s' hs'
        exact .refl h (receive_out hs').1 (receive_out hs').2.1
    · exact .refl h rfl rfl
  | ackBack i =>
    show Onward s (ackBack s i)
    unfold ackBack
    split
    · exact .refl h rfl rfl
    split <;> exact .refl h rfl rfl
  | pay a b n =>
    show Onward s (payStep s a b n)
    unfold payStep
    split
    · exact .refl h rfl rfl
    cases e : pay s a b n with
    | none => exact .refl h rfl rfl
    | some s' =>
      have := (pay_coins e).2
      subst this
      exact .refl h rfl rfl
  | payTokens a b n =>
    show Onward s (payTokens s a b n)
    unfold payTokens
    split
    · exact .refl h rfl rfl
    split <;> exact .refl h rfl rfl
  | convert a b n =>
    show Onward s (convert s a b n)
    unfold convert
    split
    · exact .refl h rfl rfl
    split <;> exact .refl h rfl rfl
  | pause b => exact .refl h rfl rfl
  | setOn b => exact .refl h rfl rfl
  | setPair b => exact .refl h rfl rfl
  | vest a b n =>
    show Onward s (vest s a b n)
    unfold vest
    split
    · exact .refl h rfl rfl
    split
    · exact .refl h rfl rfl
    · rename_i s' hs'
      have := (pay_coins hs').2
      subst this
      exact .refl h rfl rfl
  | unlock a => exact .refl h rfl rfl

theorem sent_run {s : St} (h : Sent s) (ops : List Op) : Sent (run s ops) := by
  induction ops generalizing s with
  | nil => exact h
  | cons op ops ih => exact ih (onward_step h op).2

theorem sent_init (bal : Nat → Nat) : Sent (init bal) := fun _ _ h => nomatch h

/-- Places that a packet never leaves, or only for another such. -/
theorem settled_run {P : OutAt → Prop} (hP : ∀ x y, P x → Next x y → P y) {s : St} (h : Sent s) (ops : List Op) {i : Nat} {p : Out}
    (hp : s.out i = some p) (hx : P p.at_) :
    ∃ q, (run s ops).out i = some q ∧ q.chan = p.chan ∧ q.sender = p.sender ∧ q.amount = p.amount ∧ P q.at_ := by
  induction ops generalizing s p with
  | nil => exact ⟨p, hp, rfl, rfl, rfl, hx⟩
  | cons op ops ih =>
    obtain ⟨q, hq, h1, h2, h3, h4⟩ := (onward_step h op).1 i p hp
    obtain ⟨r, hr, e1, e2, e3, e4⟩ := ih (onward_step h op).2 hq (hP _ _ hx h4)
    exact ⟨r, hr, e1.trans h1, e2.trans h2, e3.trans h3, e4⟩

end Erc20.Ibc
