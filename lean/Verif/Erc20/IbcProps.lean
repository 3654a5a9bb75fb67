import Verif.Erc20.IbcLemmas6
/-!
# IBC transfers of tokens (C94)
-/
namespace Erc20.Ibc

open Erc20.Convert

/-- A history for examples: user 2 has 100 tokens and user 4 has 50; user 2 turns 30 into coins, then sends 40 over channel 0, which
arrive; user 4 sends 20, which are on their way. -/
def start : Nat → Nat := fun a => if a = 2 then 100 else if a = 4 then 50 else 0
def story : List Op := [.convert 2 2 30, .transfer 0 2 40, .accept 0, .ack 0, .transfer 0 4 20]

/-- **A transfer takes exactly its amount**, from coins first and for the rest from tokens; the channel's account has exactly that much
more, nobody else has less or more, and the packet is for that amount. -/
theorem transfer_exact {s s' : St} {c a n : Nat} (h : transfer s c a n = some s') :
    holding s a = holding s' a + n ∧ s'.w.coins a = s.w.coins a - n ∧ s'.w.coins (esc c) = s.w.coins (esc c) + n ∧
      (∀ x, x ≠ a → x ≠ esc c → x ≠ moduleAddr → s'.w.coins x = s.w.coins x ∧ s'.w.tok.bal x = s.w.tok.bal x) ∧
      s'.out s.nOut = some { chan := c, sender := a, amount := n, at_ := .going } := by
  obtain ⟨hu, hn, ⟨h1, e⟩ | ⟨_, _, h1, _, _, h4, e⟩⟩ := transfer_cases h
  · subst e
    have hm := moved_at (c := s.w.coins) (a := a) (b := esc c) (n := n) (by omega)
    have ha := hm a
    have hc := hm (esc c)
    rw [if_pos rfl, if_neg (fun e => esc_ne_user hu c e.symm)] at ha
    rw [if_neg (esc_ne_user hu c), if_pos rfl] at hc
    refine ⟨?_, ?_, ?_, fun x hx hxc _ => ⟨?_, rfl⟩, if_pos rfl⟩
    · show s.w.coins a + s.w.tok.bal a = moved s.w.coins a (esc c) n a + s.w.tok.bal a + n
      omega
    · show moved s.w.coins a (esc c) n a = _
      omega
    · show moved s.w.coins a (esc c) n (esc c) = _
      omega
    · have := hm x
      rw [if_neg hx, if_neg hxc] at this
      exact this
  · subst e
    have hm := moved_at (c := setCoins s.w.coins a n) (a := a) (b := esc c) (n := n) (by rw [setCoins_self]; omega)
    have ha := hm a
    have hc := hm (esc c)
    have hb := moved_at (c := s.w.tok.bal) (a := a) (b := moduleAddr) (n := n - s.w.coins a) (by omega)
    have hba := hb a
    rw [if_pos rfl, if_neg (user_ne_module hu)] at hba
    rw [if_pos rfl, if_neg (fun e => esc_ne_user hu c e.symm), setCoins_self] at ha
    rw [if_neg (esc_ne_user hu c), if_pos rfl, setCoins_ne _ _ (esc_ne_user hu c)] at hc
    refine ⟨?_, ?_, ?_, fun x hx hxc hxm => ⟨?_, ?_⟩, if_pos rfl⟩
    · show s.w.coins a + s.w.tok.bal a = moved (setCoins s.w.coins a n) a (esc c) n a + moved s.w.tok.bal a moduleAddr (n - s.w.coins a) a + n
      omega
    · show moved (setCoins s.w.coins a n) a (esc c) n a = _
      omega
    · show moved (setCoins s.w.coins a n) a (esc c) n (esc c) = _
      omega
    · have := hm x
      rw [if_neg hx, if_neg hxc, setCoins_ne _ _ hx] at this
      exact this
    · have := hb x
      rw [if_neg hx, if_neg hxm] at this
      exact this

example : (transfer (run (init start) [.convert 2 2 30]) 0 2 40).isSome = true := by decide +kernel

/-- A transfer of a token that is not paused, while both switches are on, succeeds whenever coins and tokens together suffice, for
an account without locked coins. -/
theorem transfer_succeeds_iff_partial {s : St} {c a n : Nat} (hon : s.on = true) (hp : s.pair = true) (hpa : s.w.tok.paused = false)
    (hl : s.locked a = 0) : (∃ s', transfer s c a n = some s') ↔ isUser a = true ∧ 0 < n ∧ n ≤ holding s a := by
  constructor
  · rintro ⟨s', h⟩
    have := (transfer_exact h).1
    obtain ⟨hu, hn, _⟩ := transfer_cases h
    exact ⟨hu, hn, by omega⟩
  · rintro ⟨hu, hn, h⟩
    unfold holding at h
    unfold transfer
    rw [if_neg (by rintro (e | e); · rw [hu] at e; cases e
                   · omega), if_neg (by rintro (e | e); · rw [hp] at e; cases e
                                        · rw [hon] at e; cases e)]
    by_cases hc : s.w.coins a ≥ n
    · rw [if_pos hc, ship_eq, if_neg (by omega)]
      exact ⟨_, rfl⟩
    · rw [if_neg hc, fill_eq _ _ _ (user_ne_module hu) (by omega), if_neg (by rintro (e | e); · rw [hpa] at e; cases e
                                                                              · omega)]
      dsimp only
      rw [ship_eq, if_neg]
      · exact ⟨_, rfl⟩
      · show ¬ setCoins s.w.coins a n a < s.locked a + n
        rw [setCoins_self]
        omega

/-- Missing in `transfer_succeeds_iff_partial`: locked coins are counted as if they could be sent. With 30 locked coins and 70 tokens a
transfer of 20 fails, though it could be made from tokens. -/
theorem locked_coins_block_transfers :
    let s := run (init start) [.convert 4 4 30, .vest 4 2 30]
    s.w.coins 2 = 30 ∧ s.locked 2 = 30 ∧ s.w.tok.bal 2 = 100 ∧ (transfer s 0 2 20).isNone = true := by decide +kernel

/-- **A refund gives back exactly the amount**: when a transfer that failed is refunded, its sender has exactly its amount more, in
coins and tokens together, and no other user has less or more. -/
theorem refund_exact (bal : Nat → Nat) (ops : List Op) {op : Op} {i : Nat} {p : Out} (hop : op = .ack i ∨ op = .timeout i)
    (hp : (run (init bal) ops).out i = some p) (h0 : p.at_ ≠ .refunded)
    (h1 : (step (run (init bal) ops) op).out i = some { p with at_ := .refunded }) :
    holding (step (run (init bal) ops) op) p.sender = holding (run (init bal) ops) p.sender + p.amount ∧
      ∀ u, isUser u = true → u ≠ p.sender → holding (step (run (init bal) ops) op) u = holding (run (init bal) ops) u := by
  have hs := sent_run (sent_init bal) ops
  generalize run (init bal) ops = s at hp h1 hs ⊢
  have hu := (hs i p hp).2
  have key : ∀ s', refund s p = some s' →
      holding (setOut s' i p .refunded) p.sender = holding s p.sender + p.amount ∧
      ∀ u, isUser u = true → u ≠ p.sender → holding (setOut s' i p .refunded) u = holding s u := by
    intro s' h
    refine ⟨?_, fun u hu' hne => ?_⟩
    · have := refund_holding (user_ne_module hu) h (user_ne_module hu)
      rw [if_neg (fun e => esc_ne_user hu p.chan e.symm), if_pos rfl] at this
      exact this
    · have := refund_holding (user_ne_module hu) h (user_ne_module hu')
      rw [if_neg (fun e => esc_ne_user hu' p.chan e.symm), if_neg hne] at this
      exact this
  have same : s.out i ≠ some { p with at_ := .refunded } := by
    rw [hp]
    intro e
    exact h0 (congrArg Out.at_ (Option.some.inj e))
  have stepR : (refundStep s i p).out i = some { p with at_ := .refunded } →
      holding (refundStep s i p) p.sender = holding s p.sender + p.amount ∧
      ∀ u, isUser u = true → u ≠ p.sender → holding (refundStep s i p) u = holding s u := by
    unfold refundStep
    split
    · exact fun e => absurd e same
    · rename_i s' hs'
      exact fun _ => key s' hs'
  rcases hop with e | e <;> subst e
  · change (ack s i).out i = _ at h1
    show holding (ack s i) _ = _ ∧ ∀ u, _ → _ → holding (ack s i) u = _
    unfold ack at h1 ⊢
    rw [hp] at h1 ⊢
    dsimp only at h1 ⊢
    split
    · rename_i hat
      rw [if_pos hat] at h1
      have h1 : some { p with at_ := OutAt.done } = some { p with at_ := OutAt.refunded } := by rw [← h1]; exact (if_pos rfl).symm
      exact nomatch congrArg Out.at_ (Option.some.inj h1)
    · rename_i hat
      rw [if_neg hat] at h1
      split
      · rename_i hat2
        rw [if_pos hat2] at h1
        exact stepR h1
      · rename_i hat2
        rw [if_neg hat2] at h1
        exact absurd h1 same
  · change (timeout s i).out i = _ at h1
    show holding (timeout s i) _ = _ ∧ ∀ u, _ → _ → holding (timeout s i) u = _
    unfold timeout at h1 ⊢
    rw [hp] at h1 ⊢
    dsimp only at h1 ⊢
    split
    · rename_i hat
      rw [if_pos hat] at h1
      exact stepR h1
    · rename_i hat
      rw [if_neg hat] at h1
      exact absurd h1 same

example : holding (step (run (init start) story) (.timeout 1)) 4 = holding (run (init start) story) 4 + 20 := by decide +kernel

/-- **A transfer is refunded or arrives, not both, and at most once**: in every history, a refunded one stays refunded, and one that was
received is never refunded. -/
theorem refunded_once (bal : Nat → Nat) (ops ops' : List Op) {i : Nat} {p : Out} (hp : (run (init bal) ops).out i = some p) :
    (p.at_ = .refunded → (run (run (init bal) ops) ops').out i = some p) ∧
    (p.at_ = .received ∨ p.at_ = .done → ∃ q, (run (run (init bal) ops) ops').out i = some q ∧ q.amount = p.amount ∧ q.at_ ≠ .refunded) := by
  have hs := sent_run (sent_init bal) ops
  refine ⟨fun h => ?_, fun h => ?_⟩
  · obtain ⟨q, hq, h1, h2, h3, h4⟩ := settled_run (P := fun x => x = .refunded)
      (fun x y hx hn => by subst hx; cases hn; rfl) hs ops' hp h
    rw [hq]
    cases p; cases q
    cases h; cases h1; cases h2; cases h3; cases h4
    rfl
  · obtain ⟨q, hq, h1, h2, h3, h4⟩ := settled_run (P := fun x => x = .received ∨ x = .done)
      (fun x y hx hn => by
        rcases hx with e | e <;> subst e <;> cases hn
        · exact Or.inl rfl
        · exact Or.inr rfl
        · exact Or.inr rfl) hs ops' hp h
    refine ⟨q, hq, h3, fun e => ?_⟩
    rcases h4 with h | h <;> rw [e] at h <;> cases h

example : ((run (init start) story).out 0).map (·.at_) = some .done ∧ ((run (init start) (story ++ [.timeout 1])).out 1).map (·.at_) = some .refunded := by
  decide +kernel

/-- **The account of a channel covers what it stands for** (vouchers at the other end and packets under way), and tokens of the module
cover all coins, as long as nobody at the other end names the account of a channel as recipient. -/
theorem escrow_covers_partial (bal : Nat → Nat) {ops : List Op} (ho : Ordinary ops) (c : Nat) :
    owed (run (init bal) ops) c ≤ (run (init bal) ops).w.coins (esc c) ∧
      (run (init bal) ops).w.supply ≤ (run (init bal) ops).w.tok.bal moduleAddr := by
  have h := safe_run bal ho
  exact ⟨Nat.le_trans (Nat.le_add_right _ _) (h.books.owed c), h.money.backed⟩

theorem story_ordinary : Ordinary story := by
  intro c r n self hm
  simp [story] at hm

example : Ordinary story ∧ owed (run (init start) story) 0 = 60 := ⟨story_ordinary, by decide +kernel⟩

/-- **Refunds succeed** as long as nobody named the account of a channel as recipient, if the token is not paused (or the module is
switched off). -/
theorem refund_succeeds_partial (bal : Nat → Nat) {ops : List Op} (ho : Ordinary ops) {i : Nat} {p : Out}
    (hp : (run (init bal) ops).out i = some p) (hpa : (run (init bal) ops).w.tok.paused = false ∨ (run (init bal) ops).on = false) :
    (p.at_ = .refused → (step (run (init bal) ops) (.ack i)).out i = some { p with at_ := .refunded }) ∧
    (p.at_ = .going → (step (run (init bal) ops) (.timeout i)).out i = some { p with at_ := .refunded }) := by
  have h := safe_run bal ho
  generalize run (init bal) ops = s at hp hpa h ⊢
  obtain ⟨hi, hu, hn⟩ := h.books.outs i p hp
  have key : p.at_ = .going ∨ p.at_ = .refused → (refundStep s i p).out i = some { p with at_ := .refunded } := by
    intro hat
    have ho := h.books.owed p.chan
    have hd : p.amount ≤ owed s p.chan := by
      have := owed_setOut hp hi .refunded p.chan
      rw [dueOut_open hat, if_pos rfl, dueOut_closed (p := { p with at_ := .refunded }) (fun h => nomatch h) (fun h => nomatch h)] at this
      omega
    obtain ⟨s', hs'⟩ := refund_succeeds hu hn (s := s) (by omega) (fun hon => by
      refine ⟨?_, ?_, h.money.locks _⟩
      · rcases hpa with e | e
        · exact e
        · rw [hon] at e; cases e
      · have := h.money.covered.one (esc p.chan)
        have := h.money.backed
        omega)
    unfold refundStep
    rw [hs']
    exact if_pos rfl
  refine ⟨fun hat => ?_, fun hat => ?_⟩
  · show (ack s i).out i = _
    unfold ack
    rw [hp]
    dsimp only
    rw [if_neg (by rw [hat]; exact fun h => nomatch h), if_pos hat]
    exact key (Or.inr hat)
  · show (timeout s i).out i = _
    unfold timeout
    rw [hp]
    dsimp only
    rw [if_pos hat]
    exact key (Or.inl hat)

example : ((run (init start) (story ++ [.refuse 1])).out 1).map (·.at_) = some .refused := by decide +kernel

/-- Missing in `refund_succeeds_partial`: while the token is paused no refund goes through, not even of a transfer that was all coins,
and even if governance switched the pair off. -/
theorem paused_token_blocks_refunds :
    let s := run (init start) [.convert 2 2 30, .transfer 0 2 30, .refuse 0, .pause true, .setPair false]
    (s.out 0).map (·.at_) = some .refused ∧ s.w.coins (esc 0) = 30 ∧
      ((step s (.ack 0)).out 0).map (·.at_) = some .refused ∧ holding (step s (.ack 0)) 2 = 70 := by decide +kernel

/-- A transfer made in coins is refunded in tokens: user 2 sent 30 coins and gets back 30 tokens and no coins. There is no message to
turn them back other than converting again. -/
theorem refunded_in_tokens :
    let s := run (init start) [.convert 2 2 30]
    let s' := run s [.transfer 0 2 30, .refuse 0, .ack 0]
    s.w.coins 2 = 30 ∧ s.w.tok.bal 2 = 70 ∧ s'.w.coins 2 = 0 ∧ s'.w.tok.bal 2 = 100 := by decide +kernel

/-- **An arrival gives exactly the amount**: the recipient of a packet that is delivered has exactly its amount more, no other user has
less or more; if both switches are on, all coins of the recipient have become tokens. -/
theorem arrival_exact {s : St} {i : Nat} {p : In} (hp : s.inn i = some p) (h0 : p.at_ = .coming)
    (h1 : (step s (.recv i)).inn i = some { p with at_ := .delivered }) :
    (∀ u, isUser u = true → holding (step s (.recv i)) u = holding s u + if u = p.recipient then p.amount else 0) ∧
      (s.on = true → s.pair = true → (step s (.recv i)).w.coins p.recipient = 0) := by
  change (recv s i).inn i = _ at h1
  show (∀ u, _ → holding (recv s i) u = _) ∧ (_ → _ → (recv s i).w.coins _ = 0)
  unfold recv at h1 ⊢
  rw [hp] at h1 ⊢
  dsimp only at h1 ⊢
  rw [if_pos h0] at h1 ⊢
  cases hr : receive s p with
  | none =>
    rw [hr] at h1
    have h1 : some { p with at_ := InAt.refused } = some { p with at_ := InAt.delivered } := by rw [← h1]; exact (if_pos rfl).symm
    exact nomatch congrArg In.at_ (Option.some.inj h1)
  | some s' =>
    dsimp only
    refine ⟨fun u hu => ?_, fun hon hpr => ?_⟩
    · have := receive_holding hr (user_ne_module hu)
      rw [if_neg (fun e => esc_ne_user hu p.chan e.symm)] at this
      exact this
    · show s'.w.coins p.recipient = 0
      unfold receive at hr
      split at hr
      · cases hr
      rename_i hm
      split at hr
      · cases hr
      rename_i s1 hs1
      have e := (pay_coins hs1).2
      subst e
      unfold afterRecv at hr
      rw [if_neg (by dsimp only; rw [hon]; decide)] at hr
      split at hr
      · cases hr
      rw [if_neg (by dsimp only; rw [hpr]; decide), toTokens_eq _ _ hm] at hr
      split at hr
      · rename_i hz
        cases hr
        exact hz
      split at hr
      · cases hr
      · cases hr
        show setCoins _ p.recipient _ p.recipient = 0
        rw [setCoins_self]
        exact Nat.sub_self _

def back : List Op := story ++ [.sendBack 0 4 25 false]

example : ((run (init start) (back ++ [.recv 0])).inn 0).map (·.at_) = some .delivered ∧ holding (run (init start) (back ++ [.recv 0])) 4 = 55 := by
  decide +kernel

/-- **Coins that come back arrive**, for a recipient that is neither blocked, nor the sender itself, nor has locked coins, while the token
is not paused, as long as nobody named the account of a channel as recipient. -/
theorem returns_succeed_partial (bal : Nat → Nat) {ops : List Op} (ho : Ordinary ops) {i : Nat} {p : In}
    (hp : (run (init bal) ops).inn i = some p) (h0 : p.at_ = .coming) (hr : p.recipient ≠ moduleAddr) (hself : p.self = false)
    (hl : (run (init bal) ops).locked p.recipient = 0) (hpa : (run (init bal) ops).w.tok.paused = false) :
    (step (run (init bal) ops) (.recv i)).inn i = some { p with at_ := .delivered } := by
  have h := safe_run bal ho
  generalize run (init bal) ops = s at hp hl hpa h ⊢
  obtain ⟨hi, hu, hn⟩ := h.books.ins i p hp
  have hd : p.amount ≤ owed s p.chan := by
    have := owed_setIn hp hi .delivered p.chan
    rw [dueIn_open (Or.inl h0), if_pos rfl, dueIn_closed (p := { p with at_ := .delivered }) (fun h => nomatch h) (fun h => nomatch h)] at this
    omega
  have hc := h.books.owed p.chan
  have hsucc : ∃ s', receive s p = some s' := by
    unfold receive
    rw [if_neg hr, pay_eq, if_neg (by omega)]
    dsimp only
    unfold afterRecv
    cases hon : s.on with
    | false => exact ⟨_, if_pos rfl⟩
    | true =>
      rw [if_neg (by decide), if_neg (by rw [hself]; decide)]
      cases hpr : s.pair with
      | false => exact ⟨_, if_pos rfl⟩
      | true =>
        rw [if_neg (by decide), toTokens_eq _ _ hr]
        split
        · exact ⟨_, rfl⟩
        · rw [if_neg]
          · exact ⟨_, rfl⟩
          · dsimp only
            have hcov := (h.money.covered.moved (b := p.recipient) (a := esc p.chan) (n := p.amount) (by omega)).one p.recipient
            have := h.money.backed
            rintro (e | e | e)
            · rw [hl] at e; omega
            · rw [hpa] at e; cases e
            · omega
  obtain ⟨s', hs'⟩ := hsucc
  show (recv s i).inn i = _
  unfold recv
  rw [hp]
  dsimp only
  rw [if_pos h0, hs']
  exact if_pos rfl

example : Ordinary back ∧ ((run (init start) back).inn 0).map (fun p => (p.recipient, p.amount, p.self)) = some (4, 25, false) := by
  refine ⟨?_, by decide +kernel⟩
  intro c r n self hm d
  simp [back, story] at hm
  obtain ⟨_, h, _⟩ := hm
  subst h
  unfold esc
  omega

theorem run_append (s : St) (l l' : List Op) : run s (l ++ l') = run (run s l) l' := by
  induction l generalizing s with
  | nil => rfl
  | cons op l ih => exact ih (step s op)

/-- **There and back again**: what was sent over a channel, arrived, was sent back and arrived again leaves its owner with what they had,
as long as nobody named the account of a channel as recipient. -/
theorem there_and_back_partial (bal : Nat → Nat) {ops : List Op} (ho : Ordinary ops) {c a n : Nat} {s' : St}
    (ht : transfer (run (init bal) ops) c a n = some s') (hl : (run (init bal) ops).locked a = 0)
    (hpa : (run (init bal) ops).w.tok.paused = false) :
    holding (run s' [.accept (run (init bal) ops).nOut, .sendBack c a n false, .recv (run (init bal) ops).nIn]) a =
      holding (run (init bal) ops) a := by
  obtain ⟨hu, hn, hcase⟩ := transfer_cases ht
  have hex := transfer_exact ht
  have hstep : run (init bal) (ops ++ [.transfer c a n, .accept (run (init bal) ops).nOut, .sendBack c a n false]) =
      run s' [.accept (run (init bal) ops).nOut, .sendBack c a n false] := by
    rw [run_append]
    show run ((transfer (run (init bal) ops) c a n).getD _) _ = _
    rw [ht]
    rfl
  have hord : Ordinary (ops ++ [.transfer c a n, .accept (run (init bal) ops).nOut, .sendBack c a n false]) := by
    intro c' r n' self hm
    rcases List.mem_append.1 hm with h | h
    · exact ho c' r n' self h
    · rcases List.mem_cons.1 h with h | h
      · cases h
      rcases List.mem_cons.1 h with h | h
      · cases h
      rcases List.mem_cons.1 h with h | h
      · cases h
        exact fun d e => esc_ne_user hu d e.symm
      · cases h
  have hsame : s'.nIn = (run (init bal) ops).nIn ∧ s'.locked = (run (init bal) ops).locked ∧
      s'.w.tok.paused = (run (init bal) ops).w.tok.paused := by
    rcases hcase with ⟨_, e⟩ | ⟨_, _, _, _, _, _, e⟩ <;> subst e <;> exact ⟨rfl, rfl, rfl⟩
  generalize hs : run (init bal) ops = s at *
  have e1 : accept s' s.nOut = { setOut s' s.nOut { chan := c, sender := a, amount := n, at_ := .going } .received with
      there := setAt s'.there c (s'.there c + n) } := by
    unfold accept
    rw [hex.2.2.2.2]
    rfl
  have hth : (accept s' s.nOut).there c = s'.there c + n := by rw [e1]; exact if_pos rfl
  have hni : (accept s' s.nOut).nIn = s.nIn := by rw [e1]; exact hsame.1
  have hw : (accept s' s.nOut).w = s'.w := by rw [e1]; rfl
  have hlk : (accept s' s.nOut).locked = s'.locked := by rw [e1]; rfl
  generalize hA : accept s' s.nOut = A at *
  have e2 : sendBack A c a n false = { A with
      there := setAt A.there c (A.there c - n),
      inn := setAt A.inn A.nIn (some { chan := c, recipient := a, amount := n, self := false, at_ := .coming }), nIn := A.nIn + 1 } := by
    unfold sendBack
    rw [if_neg (by rintro (e | e) <;> omega)]
  have hrun : run s' [.accept s.nOut, .sendBack c a n false] = sendBack A c a n false := by
    show sendBack (accept s' s.nOut) c a n false = _
    rw [hA]
  have hin : (sendBack A c a n false).inn s.nIn = some { chan := c, recipient := a, amount := n, self := false, at_ := .coming } := by
    rw [e2, ← hni]; exact if_pos rfl
  have hwB : (sendBack A c a n false).w = s'.w := by rw [e2]; exact hw
  have hlB : (sendBack A c a n false).locked = s'.locked := by rw [e2]; exact hlk
  have hret := returns_succeed_partial bal hord (i := s.nIn)
    (p := { chan := c, recipient := a, amount := n, self := false, at_ := .coming }) (by rw [hstep, hrun]; exact hin) rfl
    (user_ne_module hu) rfl (by rw [hstep, hrun, hlB, hsame.2.1]; exact hl) (by rw [hstep, hrun, hwB, hsame.2.2]; exact hpa)
  rw [hstep, hrun] at hret
  have harr := (arrival_exact hin rfl hret).1 a hu
  rw [if_pos rfl] at harr
  show holding (step (sendBack (accept s' s.nOut) c a n false) (.recv s.nIn)) a = holding s a
  rw [hA, harr]
  have : holding (sendBack A c a n false) a = holding s' a := by unfold holding; rw [hwB]
  have := hex.1
  dsimp only
  omega

example : (transfer (run (init start) story) 0 2 60).isSome = true ∧ (run (init start) story).locked 2 = 0 := by decide +kernel

/-- **Anyone can empty the account of a channel.** Whoever has one voucher at the other end and sends it to the channel's own account has
all coins of that account converted to tokens of an address that nobody controls: the middleware converts the recipient's whole
balance, and the account is not blocked. -/
theorem anyone_can_empty_the_escrow {s : St} (hm : s.w.coins (esc c) ≤ s.w.tok.bal moduleAddr) (hon : s.on = true) (hpr : s.pair = true)
    (hpa : s.w.tok.paused = false) (hl : s.locked (esc c) = 0) (hv : 0 < s.there c) (hc : 0 < s.w.coins (esc c)) :
    let s' := run s [.sendBack c (esc c) 1 false, .recv s.nIn]
    s'.w.coins (esc c) = 0 ∧ s'.w.tok.bal (esc c) = s.w.tok.bal (esc c) + s.w.coins (esc c) := by
  intro s'
  have e1 : step s (.sendBack c (esc c) 1 false) =
      { s with there := setAt s.there c (s.there c - 1),
               inn := setAt s.inn s.nIn (some { chan := c, recipient := esc c, amount := 1, self := false, at_ := .coming }),
               nIn := s.nIn + 1 } := by
    show sendBack s c (esc c) 1 false = _
    unfold sendBack
    rw [if_neg (by rintro (e | e) <;> omega)]
  have hs' : s' = recv (step s (.sendBack c (esc c) 1 false)) s.nIn := rfl
  rw [e1] at hs'
  unfold recv at hs'
  have e2 : setAt s.inn s.nIn (some ({ chan := c, recipient := esc c, amount := 1, self := false, at_ := .coming } : In)) s.nIn =
      some { chan := c, recipient := esc c, amount := 1, self := false, at_ := .coming } := if_pos rfl
  dsimp only at hs'
  rw [e2] at hs'
  dsimp only at hs'
  rw [if_pos rfl] at hs'
  have hmv : moved s.w.coins (esc c) (esc c) 1 = s.w.coins := by
    funext x
    have := moved_at (c := s.w.coins) (a := esc c) (b := esc c) (n := 1) (by omega) x
    omega
  unfold receive at hs'
  rw [if_neg (esc_ne_module c), pay_eq, if_neg (by show ¬ s.w.coins (esc c) < s.locked (esc c) + 1; omega)] at hs'
  dsimp only at hs'
  rw [hmv] at hs'
  unfold afterRecv at hs'
  dsimp only at hs'
  rw [hon, if_neg (by decide), if_neg (by decide), hpr, if_neg (by decide), toTokens_eq _ _ (esc_ne_module c), if_neg (by omega),
    if_neg] at hs'
  · rw [hs']
    refine ⟨?_, ?_⟩
    · show setCoins s.w.coins (esc c) _ (esc c) = 0
      rw [setCoins_self]
      exact Nat.sub_self _
    · show moved s.w.tok.bal moduleAddr (esc c) (s.w.coins (esc c)) (esc c) = _
      have := moved_at (c := s.w.tok.bal) (a := moduleAddr) (b := esc c) (n := s.w.coins (esc c)) hm (esc c)
      rw [if_neg (esc_ne_module c), if_pos rfl] at this
      exact this
  · dsimp only
    rintro (e | e | e)
    · omega
    · rw [hpa] at e; cases e
    · omega

/-- After that, vouchers are worth nothing and refunds fail: with 39 vouchers at the other end and a transfer of 20 that is refused, the
account is empty, coins that come back are refused and the refund stays undone. -/
theorem vouchers_lost :
    let s := run (init start) (story ++ [.sendBack 0 (esc 0) 1 false, .recv 0, .sendBack 0 2 10 false, .refuse 1])
    owed s 0 = 59 ∧ s.w.coins (esc 0) = 0 ∧
      ((step s (.recv 1)).inn 1).map (·.at_) = some .refused ∧ ((step s (.ack 1)).out 1).map (·.at_) = some .refused := by
  decide +kernel

/-- An account with locked coins of the pair can receive none of them over IBC while both switches are on: the whole balance is to be
converted, which locked coins prevent. -/
theorem locked_accounts_receive_nothing {s : St} {i : Nat} {p : In} (hp : s.inn i = some p) (h0 : p.at_ = .coming) (hon : s.on = true)
    (hpr : s.pair = true) (hl : 0 < s.locked p.recipient) (hn : 0 < p.amount) :
    (step s (.recv i)).inn i = some { p with at_ := .refused } := by
  have hnone : receive s p = none := by
    unfold receive
    split
    · rfl
    rename_i hm
    rw [pay_eq]
    split
    · rfl
    · rename_i s1 hs1
      split at hs1
      · cases hs1
      cases hs1
      unfold afterRecv
      dsimp only
      rw [hon, if_neg (by decide)]
      split
      · rfl
      · rw [hpr, if_neg (by decide), toTokens_eq _ _ hm]
        rename_i hlt _
        have hpos : moved s.w.coins (esc p.chan) p.recipient p.amount p.recipient ≠ 0 := by
          have := moved_at (c := s.w.coins) (a := esc p.chan) (b := p.recipient) (n := p.amount) (by omega) p.recipient
          rw [if_pos rfl] at this
          by_cases e : p.recipient = esc p.chan
          · rw [if_pos e] at this
            rw [← e] at hlt
            omega
          · rw [if_neg e] at this
            omega
        rw [if_neg hpos, if_pos (Or.inl (by dsimp only; omega))]
  show (recv s i).inn i = _
  unfold recv
  rw [hp]
  dsimp only
  rw [if_pos h0, hnone]
  exact if_pos rfl

/-- Anyone can do that to an address without account, for one coin. -/
theorem locked_by_a_stranger :
    let s := run (init start) (story ++ [.convert 4 4 1, .vest 4 6 1, .sendBack 0 6 10 false])
    s.locked 6 = 1 ∧ ((step s (.recv 0)).inn 0).map (·.at_) = some .refused := by decide +kernel

/-- Who signs an operation. -/
def signer : Op → Option Nat
  | .transfer _ a _ | .pay a _ _ | .payTokens a _ _ | .convert a _ _ | .vest a _ _ => some a
  | _ => none

/-- **Nobody else takes**: what a user holds, in coins and tokens together, is lessened only by what they sign. -/
theorem only_signers_lose (bal : Nat → Nat) (ops : List Op) (op : Op) {u : Nat} (hu : isUser u = true) (hs : signer op ≠ some u) :
    holding (run (init bal) ops) u ≤ holding (step (run (init bal) ops) op) u := by
  have hsent := sent_run (sent_init bal) ops
  generalize run (init bal) ops = s at hsent ⊢
  have hum := user_ne_module hu
  have hR : ∀ i p, s.out i = some p → holding s u ≤ holding (refundStep s i p) u := by
    intro i p hp
    unfold refundStep
    split
    · exact Nat.le_refl _
    · rename_i s' hs'
      have := refund_holding (user_ne_module (hsent i p hp).2) hs' hum
      rw [if_neg (fun e => esc_ne_user hu p.chan e.symm)] at this
      show _ ≤ holding s' u
      omega
  have hP : ∀ a b n s', pay s a b n = some s' → a ≠ u → holding s u ≤ holding s' u := by
    intro a b n s' h ha
    have := pay_holding h u
    rw [if_neg (fun e => ha e.symm)] at this
    omega
  cases op with
  | transfer c a n =>
    have ha : a ≠ u := fun e => hs (congrArg some e)
    show _ ≤ holding ((transfer s c a n).getD s) u
    cases e : transfer s c a n with
    | none => exact Nat.le_refl _
    | some s' =>
      obtain ⟨h1, h2⟩ := (transfer_exact e).2.2.2.1 u (fun e => ha e.symm) (fun e => esc_ne_user hu c e.symm) hum
      show holding s u ≤ s'.w.coins u + s'.w.tok.bal u
      rw [h1, h2]
      exact Nat.le_refl _
  | accept i =>
    show _ ≤ holding (accept s i) u
    unfold accept
    split
    · exact Nat.le_refl _
    split <;> exact Nat.le_refl _
  | refuse i =>
    show _ ≤ holding (refuse s i) u
    unfold refuse
    split
    · exact Nat.le_refl _
    split <;> exact Nat.le_refl _
  | ack i =>
    show _ ≤ holding (ack s i) u
    unfold ack
    split
    · exact Nat.le_refl _
    rename_i p hp
    split
    · exact Nat.le_refl _
    split
    · exact hR i p hp
    · exact Nat.le_refl _
  | timeout i =>
    show _ ≤ holding (timeout s i) u
    unfold timeout
    split
    · exact Nat.le_refl _
    rename_i p hp
    split
    · exact hR i p hp
    · exact Nat.le_refl _
  | sendBack c r n self =>
    show _ ≤ holding (sendBack s c r n self) u
    unfold sendBack
    split <;> exact Nat.le_refl _
  | recv i =>
    show _ ≤ holding (recv s i) u
    unfold recv
    split
    · exact Nat.le_refl _
    rename_i p hp
    split
    · split
      · exact Nat.le_refl _
      · rename_i s' hs'
        have := receive_holding hs' hum
        rw [if_neg (fun e => esc_ne_user hu p.chan e.symm)] at this
        show _ ≤ holding s' u
        omega
    · exact Nat.le_refl _
  | ackBack i =>
    show _ ≤ holding (ackBack s i) u
    unfold ackBack
    split
    · exact Nat.le_refl _
    split <;> exact Nat.le_refl _
  | pay a b n =>
    have ha : a ≠ u := fun e => hs (congrArg some e)
    show _ ≤ holding (payStep s a b n) u
    unfold payStep
    split
    · exact Nat.le_refl _
    cases e : pay s a b n with
    | none => exact Nat.le_refl _
    | some s' => exact hP a b n s' e ha
  | payTokens a b n =>
    have ha : a ≠ u := fun e => hs (congrArg some e)
    show _ ≤ holding (payTokens s a b n) u
    unfold payTokens
    split
    · exact Nat.le_refl _
    rw [move_eq]
    split
    · exact Nat.le_refl _
    rename_i t ht
    split at ht
    · cases ht
    rename_i h2
    cases ht
    have := moved_at (c := s.w.tok.bal) (a := a) (b := b) (n := n) (by have := fun e => h2 (Or.inr e); omega) u
    rw [if_neg (fun e => ha e.symm)] at this
    show s.w.coins u + s.w.tok.bal u ≤ s.w.coins u + moved s.w.tok.bal a b n u
    omega
  | convert a b n =>
    have ha : a ≠ u := fun e => hs (congrArg some e)
    show _ ≤ holding (convert s a b n) u
    unfold convert
    split
    · exact Nat.le_refl _
    rw [conv_eq]
    split
    · exact Nat.le_refl _
    rename_i w hw
    split at hw
    · cases hw
    rename_i h2
    cases hw
    have := moved_at (c := s.w.tok.bal) (a := a) (b := moduleAddr) (n := n)
      (by have := fun e => h2 (Or.inr (Or.inr (Or.inl e))); omega) u
    rw [if_neg (fun e => ha e.symm), if_neg hum] at this
    have h3 : s.w.coins u ≤ setCoins s.w.coins b (s.w.coins b + n) u := by
      unfold setCoins
      split
      · rename_i e; rw [e]; omega
      · exact Nat.le_refl _
    show s.w.coins u + s.w.tok.bal u ≤ setCoins s.w.coins b (s.w.coins b + n) u + moved s.w.tok.bal a moduleAddr n u
    omega
  | pause b => exact Nat.le_refl _
  | setOn b => exact Nat.le_refl _
  | setPair b => exact Nat.le_refl _
  | vest a b n =>
    have ha : a ≠ u := fun e => hs (congrArg some e)
    show _ ≤ holding (vest s a b n) u
    unfold vest
    split
    · exact Nat.le_refl _
    split
    · exact Nat.le_refl _
    · rename_i s' hs'
      exact hP a b n s' hs' ha
  | unlock a => exact Nat.le_refl _

example : signer (.timeout 1) ≠ some 2 ∧ holding (run (init start) story) 2 = 60 := by decide +kernel

end Erc20.Ibc
