import Verif.Chronos.CronLemmas
import Verif.Lib.Bytes

/-!
# C75: scheduled calls, their deposits and who controls them

`Reach wallet n s`: `s` is a state after `n` operations (creations, callbacks, updates,
cancellations and anything else on the chain, subject to `Fair`).
-/

namespace Chronos
open Addr

/-- Operations that can follow each other from `s`. -/
def Hist (wallet : Nat → List Nat) : State → List Op → Prop
  | _, [] => True
  | s, op :: ops => Fair wallet s op ∧ Hist wallet (step wallet s op) ops

theorem reach_run {wallet : Nat → List Nat} : ∀ (ops : List Op) {n : Nat} {s : State},
    Reach wallet n s → Hist wallet s ops → Reach wallet (n + ops.length) (run wallet s ops)
  | [], _, _, h, _ => h
  | op :: ops, n, s, h, hh => by
    have := reach_run ops (Reach.step op h hh.1) hh.2
    rw [List.length_cons, show n + (ops.length + 1) = n + 1 + ops.length by omega]
    exact this

/-! ## Creation -/

/-- **C75.**  A creation that succeeds was signed by the owner, takes exactly the deposit from the
owner's account, gives it to the wallet of a new identifier, stores the requested record under that
identifier, and leaves all other records alone. -/
theorem create_effect {wallet : Nat → List Nat} (hw : Wallets wallet) {n : Nat} {s s' : State}
    (hr : Reach wallet n s) (hn : n < 2 ^ 64 - 2) {r : Create} (h : create wallet s r = some s') :
    r.owner = r.sender ∧
    ∃ o c, fromBech32 accHrp r.sender = some o ∧
      Moved s.bal s'.bal o (wallet s.id) r.amount.toNat ∧
      KV.get s.crons s.id = none ∧ KV.get s.archived s.id = none ∧
      KV.get s'.crons s.id = some c ∧ c.id = s.id ∧ c.owner = r.owner ∧ c.contract = r.contract ∧
      c.address = accString (wallet s.id) ∧ c.gasLimit = r.gasLimit ∧ c.maxGasPrice = r.maxGasPrice ∧
      c.expiration = r.expiration ∧ c.callback = r.callback ∧
      (r.callback = false → c.frequency = r.frequency ∧ c.next = s.height + r.frequency) ∧
      (∀ k, k ≠ s.id → KV.get s'.crons k = KV.get s.crons k) ∧ s'.archived = s.archived ∧
      (40600 < s.height → (anyToHex r.owner, s.id) ∈ s'.byOwner) := by
  have hi := reach_inv hw hr hn
  have hid := reach_id hr hn
  obtain ⟨hv, ho, hnone, _, b, bal, hb, hle, ht, rfl⟩ := create_facts h
  obtain ⟨o, howner⟩ := valid_owner hv
  refine ⟨ho, o, r.cron s.id s.height (accString (wallet s.id)), by rw [← ho]; exact howner, ?_, hnone, ?_,
    ?_, rfl, rfl, rfl, rfl, rfl, rfl, rfl, rfl, ?_, ?_, rfl, fun hh => ?_⟩
  · exact inTransfer_moved (s := { s with
          nextId := some (bump s.id)
          accounts := fun a => if a = wallet s.id then true else s.accounts a })
      (hw.addr s.id (by omega)) howner (balanceOf_mono _ _ hb) hle ht
  · cases hg : KV.get s.archived s.id with
    | none => rfl
    | some c => exact absurd (hi.past _ _ hg).2.2 (Nat.lt_irrefl _)
  · show KV.get (KV.set s.crons s.id _) s.id = _
    rw [KV.get_set, if_pos rfl]
  · intro hc
    unfold Create.cron
    rw [hc]
    exact ⟨rfl, rfl⟩
  · intro k hk
    show KV.get (KV.set s.crons s.id _) k = _
    rw [KV.get_set, if_neg hk]
  · show (anyToHex r.owner, s.id) ∈ if update1 < s.height then (anyToHex r.owner, s.id) :: s.byOwner else s.byOwner
    rw [if_pos (show update1 < s.height from hh)]
    exact List.mem_cons_self

/-- **C75.**  A scheduled call with a contract to execute is only accepted if the contract exists
and the deposit exceeds the highest fee of one execution (for gas limits in the range of `int64`). -/
theorem create_checked {wallet : Nat → List Nat} {s s' : State} {r : Create}
    (h : create wallet s r = some s') (hc : r.callback = false) :
    s.accounts (anyToHex r.contract) = true ∧ s.code (anyToHex r.contract) = true ∧
    (r.gasLimit < 2 ^ 63 → r.maxGasPrice * (r.gasLimit : Int) < r.amount) := by
  obtain ⟨_, _, _, hk, _⟩ := create_facts h
  unfold Create.checked at hk
  rw [hc, Bool.false_or, Bool.and_eq_true, Bool.and_eq_true, decide_eq_true_eq] at hk
  refine ⟨hk.1.1, hk.1.2, fun hg => ?_⟩
  have := hk.2
  unfold toInt64 at this
  rw [if_pos hg] at this
  exact this

/-! ## Who changes records -/

/-- **C75.**  A record changes only in three ways: its owner updates the schedule, gas limit and
price; its owner cancels it; or its callback arrives, which only notes the time. -/
theorem record_change {wallet : Nat → List Nat} (hw : Wallets wallet) {n : Nat} {s : State}
    (hr : Reach wallet n s) (hn : n < 2 ^ 64 - 2) (op : Op) {k : Nat} {c : Cron}
    (hc : KV.get s.crons k = some c) :
    KV.get (step wallet s op).crons k = some c ∨
    (∃ r, op = .update r ∧ r.id = k ∧ r.sender = c.owner ∧
      KV.get (step wallet s op).crons k = some { c with
        frequency := r.frequency, expiration := r.expiration, gasLimit := r.gasLimit,
        maxGasPrice := r.maxGasPrice }) ∨
    (∃ data, op = .callback k data ∧
      KV.get (step wallet s op).crons k = some { c with queueTs := s.time }) ∨
    (∃ owner, op = .cancel c.owner owner k ∧
      KV.get (step wallet s op).crons k = none ∧ KV.get (step wallet s op).archived k = some c) := by
  have hi := reach_inv hw hr hn
  have hg := hi.live k c hc
  cases op with
  | create r =>
    left
    show KV.get ((create wallet s r).getD s).crons k = some c
    cases h : create wallet s r with
    | none => exact hc
    | some s' =>
      obtain ⟨_, _, _, _, b, bal, _, _, _, rfl⟩ := create_facts h
      show KV.get (KV.set s.crons s.id _) k = _
      rw [KV.get_set, if_neg (Nat.ne_of_lt hg.lt), hc]
  | callback id data =>
    show KV.get (callback s id data).crons k = some c ∨ _ ∨ (∃ d, _ ∧ KV.get (callback s id data).crons k = _) ∨ _
    unfold callback
    dsimp only
    split
    · exact Or.inl hc
    · rename_i c' hc'
      split
      · exact Or.inl hc
      · have hid := (hi.live id c' hc').id
        by_cases e : k = id
        · subst e
          rw [hc] at hc'
          injection hc' with hc'
          subst hc'
          refine Or.inr (Or.inr (Or.inl ⟨data, rfl, ?_⟩))
          show KV.get (KV.set s.crons c.id _) k = _
          rw [KV.get_set, if_pos hid.symm]
        · left
          show KV.get (KV.set s.crons c'.id _) k = _
          rw [KV.get_set, if_neg (by rw [hid]; exact e), hc]
  | update r =>
    show KV.get ((update s r).getD s).crons k = some c ∨
      (∃ r', _ ∧ _ ∧ _ ∧ KV.get ((update s r).getD s).crons k = _) ∨ _
    unfold update
    split
    · exact Or.inl hc
    · rename_i c' hc'
      split
      · exact Or.inl hc
      · rename_i hs
        have hid := (hi.live r.id c' hc').id
        by_cases e : k = r.id
        · subst e
          rw [hc] at hc'
          injection hc' with hc'
          subst hc'
          refine Or.inr (Or.inl ⟨r, rfl, rfl, (Decidable.not_not.mp hs).symm, ?_⟩)
          show KV.get (KV.set s.crons c.id _) r.id = _
          rw [KV.get_set, if_pos hid.symm]
        · left
          show KV.get (KV.set s.crons c'.id _) k = _
          rw [KV.get_set, if_neg (by rw [hid]; exact e), hc]
  | cancel sender owner id =>
    show KV.get ((cancel s sender owner id).getD s).crons k = some c ∨ _ ∨ _ ∨
      (∃ o, _ ∧ KV.get ((cancel s sender owner id).getD s).crons k = none ∧
        KV.get ((cancel s sender owner id).getD s).archived k = some c)
    cases h : cancel s sender owner id with
    | none => exact Or.inl hc
    | some s' =>
      obtain ⟨c0, o, hc0, hs, _, hrm⟩ := cancel_facts h
      obtain ⟨c', hc', _, hcase⟩ := removeCron_facts hrm
      have e0 : c0 = c' := Option.some.inj (hc0.symm.trans hc')
      subst e0
      have hid := (hi.live id c0 hc0).id
      have key : s'.crons = KV.del s.crons id ∧ s'.archived = KV.set s.archived id c0 := by
        rcases hcase with ⟨_, bal, _, rfl⟩ | ⟨_, rfl⟩
        · obtain ⟨_, _, _, _, h3, _, _, _, _, h7⟩ := retire_frame { s with bal := bal } c0
          rw [h3, h7, hid]
          exact ⟨rfl, rfl⟩
        · obtain ⟨_, _, _, _, h3, _, _, _, _, h7⟩ := retire_frame s c0
          rw [h3, h7, hid]
          exact ⟨rfl, rfl⟩
      rw [Option.getD_some, key.1, key.2, KV.get_del, KV.get_set]
      by_cases e : k = id
      · subst e
        rw [hc] at hc0
        injection hc0 with hc0
        subst hc0
        subst hs
        exact Or.inr (Or.inr (Or.inr ⟨owner, rfl, if_pos rfl, if_pos rfl⟩))
      · rw [if_neg e, hc]
        exact Or.inl rfl
  | world bal accounts code height time => exact Or.inl hc

/-- **C75.**  The record of a cancelled call stays in the archive as it was, and its identifier is
never used again. -/
theorem archive_final {wallet : Nat → List Nat} (hw : Wallets wallet) {n : Nat} {s : State}
    (hr : Reach wallet n s) (hn : n < 2 ^ 64 - 2) (op : Op) {k : Nat} {c : Cron}
    (hc : KV.get s.archived k = some c) :
    KV.get (step wallet s op).archived k = some c ∧ KV.get (step wallet s op).crons k = none := by
  have hi := reach_inv hw hr hn
  obtain ⟨hnone, _, hlt⟩ := hi.past k c hc
  cases op with
  | create r =>
    show KV.get ((create wallet s r).getD s).archived k = some c ∧ KV.get ((create wallet s r).getD s).crons k = none
    cases h : create wallet s r with
    | none => exact ⟨hc, hnone⟩
    | some s' =>
      obtain ⟨_, _, _, _, b, bal, _, _, _, rfl⟩ := create_facts h
      refine ⟨hc, ?_⟩
      show KV.get (KV.set s.crons s.id _) k = _
      rw [KV.get_set, if_neg (Nat.ne_of_lt hlt), hnone]
  | callback id data =>
    show KV.get (callback s id data).archived k = some c ∧ KV.get (callback s id data).crons k = none
    unfold callback
    dsimp only
    split
    · exact ⟨hc, hnone⟩
    · rename_i c' hc'
      split
      · exact ⟨hc, hnone⟩
      · refine ⟨hc, ?_⟩
        show KV.get (KV.set s.crons c'.id _) k = _
        rw [KV.get_set, if_neg, hnone]
        rw [(hi.live id c' hc').id]
        intro e
        rw [e, hc'] at hnone
        cases hnone
  | update r =>
    show KV.get ((update s r).getD s).archived k = some c ∧ KV.get ((update s r).getD s).crons k = none
    unfold update
    split
    · exact ⟨hc, hnone⟩
    · rename_i c' hc'
      split
      · exact ⟨hc, hnone⟩
      · refine ⟨hc, ?_⟩
        show KV.get (KV.set s.crons c'.id _) k = _
        rw [KV.get_set, if_neg, hnone]
        rw [(hi.live r.id c' hc').id]
        intro e
        rw [e, hc'] at hnone
        cases hnone
  | cancel sender owner id =>
    show KV.get ((cancel s sender owner id).getD s).archived k = some c ∧
      KV.get ((cancel s sender owner id).getD s).crons k = none
    cases h : cancel s sender owner id with
    | none => exact ⟨hc, hnone⟩
    | some s' =>
      obtain ⟨c0, o, hc0, hs, _, hrm⟩ := cancel_facts h
      obtain ⟨c', hc', _, hcase⟩ := removeCron_facts hrm
      have hid := (hi.live id c' hc').id
      have key : s'.crons = KV.del s.crons id ∧ s'.archived = KV.set s.archived id c' := by
        rcases hcase with ⟨_, bal, _, rfl⟩ | ⟨_, rfl⟩
        · obtain ⟨_, _, _, _, h3, _, _, _, _, h7⟩ := retire_frame { s with bal := bal } c'
          rw [h3, h7, hid]
          exact ⟨rfl, rfl⟩
        · obtain ⟨_, _, _, _, h3, _, _, _, _, h7⟩ := retire_frame s c'
          rw [h3, h7, hid]
          exact ⟨rfl, rfl⟩
      have e : k ≠ id := fun e => by rw [e, hc'] at hnone; cases hnone
      rw [Option.getD_some, key.1, key.2, KV.get_del, KV.get_set, if_neg e, if_neg e]
      exact ⟨hc, hnone⟩
  | world bal accounts code height time => exact ⟨hc, hnone⟩

/-! ## Coins -/

/-- **C75.**  What a cancellation does with coins: it moves the balance that the module reads for
the wallet to the owner, and nothing else. -/
theorem cancel_moves {wallet : Nat → List Nat} (hw : Wallets wallet) {n : Nat} {s s' : State}
    (hr : Reach wallet n s) (hn : n < 2 ^ 64 - 2) {sender owner : Str} {id : Nat}
    (h : cancel s sender owner id = some s') :
    ∃ c o, KV.get s.crons id = some c ∧ sender = c.owner ∧ fromBech32 accHrp c.owner = some o ∧
      o ≠ wallet id ∧ Moved s.bal s'.bal (wallet id) o (cronBalance s c) := by
  have hi := reach_inv hw hr hn
  have hid := reach_id hr hn
  obtain ⟨c0, o0, hc0, hs, _, hrm⟩ := cancel_facts h
  obtain ⟨c, hc, hco, hcase⟩ := removeCron_facts hrm
  have e0 : c0 = c := Option.some.inj (hc0.symm.trans hc)
  subst e0
  have hg := hi.live id c0 hc
  obtain ⟨o, ho, hne⟩ := hg.owner
  have hwid : IsAddress (wallet id) := hw.addr id (by have := hg.lt; omega)
  refine ⟨c0, o, hc, hs.symm, ho, hne id (by have := hg.lt; omega), ?_⟩
  rcases hcase with ⟨_, bal, hb, rfl⟩ | ⟨hz, rfl⟩
  · rw [(retire_frame { s with bal := bal } c0).1]
    unfold outTransfer at hb
    rw [hg.address, fromBech32_acc hwid, ho] at hb
    exact (send_moved hb).2
  · rw [(retire_frame s c0).1, hz]
    exact ⟨Nat.zero_le _, fun a => by simp⟩

/-- **C75.**  Apart from the rest of the chain, coins leave an account only if it is the signer of a
creation, or the wallet of a call that its owner cancels. -/
theorem coins_safe {wallet : Nat → List Nat} (hw : Wallets wallet) {n : Nat} {s : State}
    (hr : Reach wallet n s) (hn : n < 2 ^ 64 - 2) (op : Op)
    (hop : ∀ b c d e f, op ≠ .world b c d e f) (a : List Nat) :
    s.bal a ≤ (step wallet s op).bal a ∨
    (∃ r, op = .create r ∧ fromBech32 accHrp r.sender = some a ∧
      s.bal a ≤ (step wallet s op).bal a + r.amount.toNat) ∨
    (∃ k c o, KV.get s.crons k = some c ∧ op = .cancel c.owner o k ∧ a = wallet k) := by
  cases op with
  | create r =>
    show s.bal a ≤ ((create wallet s r).getD s).bal a ∨
      (∃ r', _ ∧ _ ∧ s.bal a ≤ ((create wallet s r).getD s).bal a + _) ∨ _
    cases h : create wallet s r with
    | none => exact Or.inl (Nat.le_refl _)
    | some s' =>
      obtain ⟨_, o, c, ho, hm, _⟩ := create_effect hw hr hn h
      have := hm.2 a
      by_cases e : a = o
      · subst e
        refine Or.inr (Or.inl ⟨r, rfl, ho, ?_⟩)
        rw [if_pos rfl] at this
        rw [Option.getD_some]
        omega
      · rw [if_neg e] at this
        left
        rw [Option.getD_some]
        omega
  | callback id data =>
    left
    show s.bal a ≤ (callback s id data).bal a
    unfold callback
    dsimp only
    split
    · exact Nat.le_refl _
    · split <;> exact Nat.le_refl _
  | update r =>
    left
    show s.bal a ≤ ((update s r).getD s).bal a
    unfold update
    split
    · exact Nat.le_refl _
    · split <;> exact Nat.le_refl _
  | cancel sender owner id =>
    show s.bal a ≤ ((cancel s sender owner id).getD s).bal a ∨ _
    cases h : cancel s sender owner id with
    | none => exact Or.inl (Nat.le_refl _)
    | some s' =>
      obtain ⟨c, o, hc, hs, _, _, hm⟩ := cancel_moves hw hr hn h
      have := hm.2 a
      by_cases e : a = wallet id
      · exact Or.inr (Or.inr ⟨id, c, owner, hc, by rw [hs], e⟩)
      · rw [if_neg e] at this
        left
        rw [Option.getD_some]
        omega
  | world b c d e f => exact absurd rfl (hop b c d e f)

/-- A wallet loses coins only by its owner's cancellation. -/
theorem wallet_step {wallet : Nat → List Nat} (hw : Wallets wallet) {n : Nat} {s : State}
    (hr : Reach wallet n s) (hn : n < 2 ^ 64 - 2) (op : Op) (hf : Fair wallet s op) {k : Nat}
    (hk : k < 2 ^ 64)
    (hop : ∀ c o, KV.get s.crons k = some c → op ≠ .cancel c.owner o k) :
    s.bal (wallet k) ≤ (step wallet s op).bal (wallet k) := by
  have hi := reach_inv hw hr hn
  have hid := reach_id hr hn
  by_cases hwo : ∃ b c d e f, op = .world b c d e f
  · obtain ⟨b, c, d, e, f, rfl⟩ := hwo
    exact hf.1 k hk
  · rcases coins_safe hw hr hn op (fun b c d e f h => hwo ⟨b, c, d, e, f, h⟩) (wallet k) with
      h | ⟨r, rfl, h, _⟩ | ⟨j, c, o, hc, rfl, h⟩
    · exact h
    · exact absurd rfl (hf _ h k hk)
    · have hj := (hi.live j c hc).lt
      have := hw.inj k j hk (by omega) h
      subst this
      exact absurd rfl (hop c o hc)

/-- **C75.**  Over any history without a cancellation by the owner, a scheduled call stays, with its
owner, contract and wallet, and its wallet loses nothing. -/
theorem deposit_kept {wallet : Nat → List Nat} (hw : Wallets wallet) : ∀ (ops : List Op) {n : Nat} {s : State},
    Reach wallet n s → n + ops.length < 2 ^ 64 - 2 → Hist wallet s ops → ∀ {k : Nat} {c : Cron},
    KV.get s.crons k = some c → (∀ o, Op.cancel c.owner o k ∉ ops) →
    s.bal (wallet k) ≤ (run wallet s ops).bal (wallet k) ∧
    ∃ c', KV.get (run wallet s ops).crons k = some c' ∧ c'.id = k ∧ c'.owner = c.owner ∧
      c'.contract = c.contract ∧ c'.address = accString (wallet k)
  | [], n, s, hr, hn, _, k, c, hc, _ => by
    have hg := (reach_inv hw hr (by omega)).live k c hc
    exact ⟨Nat.le_refl _, c, hc, hg.id, rfl, rfl, hg.address⟩
  | op :: ops, n, s, hr, hn, hh, k, c, hc, hno => by
    rw [List.length_cons] at hn
    have hid := reach_id hr (by omega)
    have hg := (reach_inv hw hr (by omega)).live k c hc
    have h1 : s.bal (wallet k) ≤ (step wallet s op).bal (wallet k) :=
      wallet_step hw hr (by omega) op hh.1 (by have := hg.lt; omega) (fun c' o hc' e => by
        rw [hc] at hc'
        injection hc' with hc'
        subst hc'
        exact hno o (by rw [← e]; exact List.mem_cons_self))
    have h2 : ∃ c1, KV.get (step wallet s op).crons k = some c1 ∧ c1.owner = c.owner ∧ c1.contract = c.contract := by
      rcases record_change hw hr (by omega) op hc with h | ⟨r, _, _, _, h⟩ | ⟨d, _, h⟩ | ⟨o, e, _⟩
      · exact ⟨c, h, rfl, rfl⟩
      · exact ⟨_, h, rfl, rfl⟩
      · exact ⟨_, h, rfl, rfl⟩
      · exact absurd (by rw [e]; exact List.mem_cons_self) (hno o)
    obtain ⟨c1, hc1, ho, hct⟩ := h2
    have ih := deposit_kept hw ops (Reach.step op hr hh.1) (by omega) hh.2 hc1
      (fun o hm => hno o (by rw [← ho]; exact List.mem_cons_of_mem _ hm))
    obtain ⟨i1, c', i2, i3, i4, i5, i6⟩ := ih
    exact ⟨Nat.le_trans h1 i1, c', i2, i3, i4.trans ho, i5.trans hct, i6⟩

/-- **C75.**  Over any history, the wallet of a cancelled call loses nothing either: what a
cancellation leaves there can never be taken out. -/
theorem retired_stuck {wallet : Nat → List Nat} (hw : Wallets wallet) : ∀ (ops : List Op) {n : Nat} {s : State},
    Reach wallet n s → n + ops.length < 2 ^ 64 - 2 → Hist wallet s ops → ∀ {k : Nat} {c : Cron},
    KV.get s.archived k = some c → s.bal (wallet k) ≤ (run wallet s ops).bal (wallet k)
  | [], n, s, _, _, _, k, c, _ => Nat.le_refl _
  | op :: ops, n, s, hr, hn, hh, k, c, hc => by
    rw [List.length_cons] at hn
    have hid := reach_id hr (by omega)
    obtain ⟨hnone, _, hlt⟩ := (reach_inv hw hr (by omega)).past k c hc
    have h1 : s.bal (wallet k) ≤ (step wallet s op).bal (wallet k) :=
      wallet_step hw hr (by omega) op hh.1 (by omega) (fun c' o hc' => by rw [hnone] at hc'; cases hc')
    exact Nat.le_trans h1 (retired_stuck hw ops (Reach.step op hr hh.1) (by omega) hh.2
      (archive_final hw hr (by omega) op hc).1)

/-! ## Getting the deposit back -/

/-- The balance read for a wallet is its balance, unless its text contains `val`. -/
theorem cronBalance_eq {wallet : Nat → List Nat} {s : State} {k : Nat} {c : Cron} (hwk : IsAddress (wallet k))
    (hg : Good wallet s k c) (hv : contains valText (accString (wallet k)) = false) :
    cronBalance s c = s.bal (wallet k) := by
  unfold cronBalance balanceOf
  rw [hg.address, any_acc_partial hwk hv, if_pos hg.account]; rfl

/-- **C75, the part that holds.**  Whatever happens between creating a call and cancelling it, the
owner can cancel it, and then receives the whole balance of the wallet, at least the deposit; the
wallet is left empty.

Missing from the full statement: it fails if the text of the wallet contains `val` (hypothesis
`hv`; see `deposit_lost`) and if the owner gave the own address in capitals (hypothesis `ho`; see
`capital_stuck`). -/
theorem deposit_returned_partial {wallet : Nat → List Nat} (hw : Wallets wallet) {n : Nat} {s s1 : State}
    (hr : Reach wallet n s) {r : Create} {o : List Nat} (hoa : IsAddress o) (ho : r.owner = accString o)
    (hv : contains valText (accString (wallet s.id)) = false)
    (hcreate : create wallet s r = some s1) (hf : Fair wallet s (.create r))
    (ops : List Op) (hn : n + 1 + ops.length < 2 ^ 64 - 2) (hh : Hist wallet s1 ops)
    (hno : ∀ x, Op.cancel r.owner x s.id ∉ ops) :
    ∃ s3, cancel (run wallet s1 ops) r.owner r.owner s.id = some s3 ∧
      Moved (run wallet s1 ops).bal s3.bal (wallet s.id) o ((run wallet s1 ops).bal (wallet s.id)) ∧
      r.amount.toNat ≤ (run wallet s1 ops).bal (wallet s.id) ∧ s3.bal (wallet s.id) = 0 := by
  obtain ⟨hsend, o', c, ho', hm, _, _, hc, _, hown, _⟩ := create_effect hw hr (by omega) hcreate
  have hoo : o' = o := by
    rw [← hsend, ho, fromBech32_acc hoa] at ho'
    exact (Option.some.inj ho').symm
  subst hoo
  have hs1 : step wallet s (.create r) = s1 := by
    show (create wallet s r).getD s = s1
    rw [hcreate]; rfl
  have hr1 : Reach wallet (n + 1) s1 := by rw [← hs1]; exact Reach.step _ hr hf
  have hid := reach_id hr (by omega)
  have hne : o' ≠ wallet s.id := hf o' ho' s.id (by omega)
  obtain ⟨hk, c', hc', _, hown', _, _⟩ := deposit_kept hw ops hr1 hn hh hc
    (fun x => by rw [hown]; exact hno x)
  have hr2 := reach_run ops hr1 hh
  generalize run wallet s1 ops = s2 at *
  have hi2 := reach_inv hw hr2 hn
  have hg := hi2.live _ _ hc'
  have hwk : IsAddress (wallet s.id) := hw.addr _ (by omega)
  have hbal := cronBalance_eq hwk hg hv
  have hdep : r.amount.toNat ≤ s1.bal (wallet s.id) := by
    have := hm.2 (wallet s.id)
    rw [if_neg (fun e => hne e.symm), if_pos rfl] at this
    omega
  have hsucc : ∃ s3, cancel s2 r.owner r.owner s.id = some s3 := by
    unfold cancel
    rw [hc']
    dsimp only
    rw [if_neg (by rw [hown', hown]; exact fun h => h rfl), ho, fromBech32_acc hoa]
    dsimp only
    unfold removeCron
    rw [hc']
    dsimp only
    rw [if_neg (by rw [hown', hown, ho]; exact fun h => h rfl)]
    split
    · unfold outTransfer
      rw [hg.address, fromBech32_acc hwk, hown', hown, ho, fromBech32_acc hoa]
      dsimp only
      obtain ⟨b', hb'⟩ := send_ok (b := s2.bal) (src := wallet s.id) o' (m := cronBalance s2 c')
        (by rw [hbal]; exact Nat.le_refl _)
      rw [hb']
      exact ⟨_, rfl⟩
    · exact ⟨_, rfl⟩
  obtain ⟨s3, h3⟩ := hsucc
  obtain ⟨c2, o2, hc2, _, ho2, _, hm2⟩ := cancel_moves hw hr2 hn h3
  have e1 : c2 = c' := Option.some.inj (hc2.symm.trans hc')
  subst e1
  have e2 : o2 = o' := by
    rw [hown', hown, ho, fromBech32_acc hoa] at ho2
    exact (Option.some.inj ho2).symm
  subst e2
  rw [hbal] at hm2
  refine ⟨s3, h3, hm2, Nat.le_trans hdep hk, ?_⟩
  have := hm2.2 (wallet s.id)
  rw [if_pos rfl, if_neg (fun e => hne e.symm)] at this
  omega

/-- **C75, where it fails.**  If the text of the wallet contains `val` and the zero address holds
nothing, cancelling removes the record without paying anything back. -/
theorem deposit_lost {wallet : Nat → List Nat} (hw : Wallets wallet) {n : Nat} {s s' : State}
    (hr : Reach wallet n s) (hn : n < 2 ^ 64 - 2) {sender owner : Str} {id : Nat}
    (hv : contains valText (accString (wallet id)) = true) (hz : s.bal (List.replicate 20 0) = 0)
    (h : cancel s sender owner id = some s') :
    s'.bal = s.bal ∧ KV.get s'.crons id = none ∧ ∃ c, KV.get s'.archived id = some c := by
  have hi := reach_inv hw hr hn
  have hid := reach_id hr hn
  obtain ⟨c, o, hc, hs, _, _, hm⟩ := cancel_moves hw hr hn h
  have hg := hi.live id c hc
  have hbal : cronBalance s c = 0 := by
    unfold cronBalance balanceOf
    rw [hg.address, any_acc_zero (hw.addr id (by have := hg.lt; omega)) hv]
    split
    · exact hz
    · rfl
  rw [hbal] at hm
  refine ⟨funext fun a => ?_, ?_⟩
  · have := hm.2 a
    simpa using this
  · have hstep : step wallet s (.cancel sender owner id) = s' := by
      show (cancel s sender owner id).getD s = s'
      rw [h]; rfl
    obtain ⟨c0, o0, hc0, hs0, _, hrm⟩ := cancel_facts h
    obtain ⟨c', hc', _, hcase⟩ := removeCron_facts hrm
    have hid' := (hi.live id c' hc').id
    rcases hcase with ⟨_, bal, _, rfl⟩ | ⟨_, rfl⟩
    · obtain ⟨_, _, _, _, h3, _, _, _, _, h7⟩ := retire_frame { s with bal := bal } c'
      rw [h3, h7, KV.get_del, KV.get_set, if_pos hid'.symm, if_pos hid'.symm]
      exact ⟨rfl, c', rfl⟩
    · obtain ⟨_, _, _, _, h3, _, _, _, _, h7⟩ := retire_frame s c'
      rw [h3, h7, KV.get_del, KV.get_set, if_pos hid'.symm, if_pos hid'.symm]
      exact ⟨rfl, c', rfl⟩

/-- **C75, where it fails.**  If the owner's text has a capital letter, nobody can cancel the call.
(By `deposit_kept` the text never changes.) -/
theorem capital_stuck {s : State} {id : Nat} {c : Cron} (hc : KV.get s.crons id = some c)
    {b : Nat} (hb : b ∈ c.owner) (hcap : isUpper b = true) (sender owner : Str) :
    cancel s sender owner id = none := by
  cases h : cancel s sender owner id with
  | none => rfl
  | some s' =>
    obtain ⟨c0, o, hc0, _, ho, hrm⟩ := cancel_facts h
    obtain ⟨c', hc', hco, _⟩ := removeCron_facts hrm
    rw [hc] at hc'
    injection hc' with hc'
    subst hc'
    rw [hco] at hb
    have := (encode_chars accHrp_good o b hb).2.2
    rw [hcap] at this
    cases this

/-! ## Indexes -/

/-- **C75.**  Every identifier handed out is either live or archived, never both, its wallet leads
back to it, and the counter is the number of live calls. -/
theorem indexes {wallet : Nat → List Nat} (hw : Wallets wallet) {n : Nat} {s : State}
    (hr : Reach wallet n s) (hn : n < 2 ^ 64 - 2) :
    s.count = s.crons.length ∧
    (∀ k, 1 ≤ k → k < s.id → KV.get s.byAddress (accString (wallet k)) = some k ∧
      ((∃ c, KV.get s.crons k = some c ∧ KV.get s.archived k = none) ∨
       (∃ c, KV.get s.archived k = some c ∧ KV.get s.crons k = none))) ∧
    ∀ k c, KV.get s.crons k = some c → c.id = k ∧ 1 ≤ k ∧ k < s.id ∧ c.address = accString (wallet k) := by
  have hi := reach_inv hw hr hn
  refine ⟨hi.count, fun k h1 h2 => ⟨hi.addr k h1 h2, ?_⟩, fun k c h => ?_⟩
  · rcases hi.all k h1 h2 with ⟨c, hc⟩ | ⟨c, hc⟩
    · left
      refine ⟨c, hc, ?_⟩
      cases ha : KV.get s.archived k with
      | none => rfl
      | some x =>
        have := (hi.past k x ha).1
        rw [hc] at this; cases this
    · exact Or.inr ⟨c, hc, (hi.past k c hc).1⟩
  · have hg := hi.live k c h
    exact ⟨hg.id, hg.pos, hg.lt, hg.address⟩

/-- **C75, what is not there.**  Whatever is scheduled is never executed and never charged: the
end-of-block function that would do it is commented out. -/
theorem never_executed {wallet : Nat → List Nat} (hw : Wallets wallet) {n : Nat} {s : State}
    (hr : Reach wallet n s) (hn : n < 2 ^ 64 - 2) {k : Nat} {c : Cron}
    (hc : KV.get s.crons k = some c) : c.executed = 0 ∧ c.feesPaid = 0 :=
  ⟨((reach_inv hw hr hn).live k c hc).executed, ((reach_inv hw hr hn).live k c hc).fees⟩

/-! ## Examples -/

/-- Wallet addresses for examples. -/
def demo (i : Nat) : List Nat := List.replicate 12 77 ++ (Bytes.be 8 i).map UInt8.toNat

/-- The same, but the first one is the real wallet number 1280. -/
def demoVal (i : Nat) : List Nat := if i = 1 then cron1280 else demo i

theorem demo_addr (i : Nat) : IsAddress (demo i) := by
  refine ⟨rfl, fun b hb => ?_⟩
  rw [demo, List.mem_append] at hb
  rcases hb with hb | hb
  · rw [List.eq_of_mem_replicate hb]; decide
  · obtain ⟨x, _, rfl⟩ := List.mem_map.mp hb
    exact x.toNat_lt

theorem demo_inj {i j : Nat} (hi : i < 2 ^ 64) (hj : j < 2 ^ 64) (h : demo i = demo j) : i = j := by
  unfold demo at h
  have h := List.append_cancel_left h
  have h2 := (List.map_inj_right (fun a b hab => UInt8.toNat_inj.mp hab)).mp h
  exact Bytes.be_inj hi hj h2

theorem demo_wallets : Wallets demo :=
  ⟨fun i _ => demo_addr i, fun _ _ hi hj h => demo_inj hi hj h⟩

theorem demo_ne_cron1280 (i : Nat) : demo i ≠ cron1280 := fun h => by
  have : (some 77 : Option Nat) = some 0x6f := show (demo i).head? = cron1280.head? by rw [h]
  exact absurd this (by decide)

theorem demoVal_wallets : Wallets demoVal := by
  refine ⟨fun i _ => ?_, fun i j hi hj h => ?_⟩
  · unfold demoVal
    split
    · decide +kernel
    · exact demo_addr i
  · unfold demoVal at h
    split at h <;> split at h
    · omega
    · exact absurd h.symm (demo_ne_cron1280 _)
    · exact absurd h (demo_ne_cron1280 _)
    · exact demo_inj hi hj h

/-- An account with 1000 coins and a contract. -/
def demoStart : State :=
  State.init (fun a => if a = plainAcc then 1000 else 0)
    (fun a => a = plainAcc || a = cron1636) (fun a => a = cron1636) 50000 7

/-- A request to call the contract every ten blocks. -/
def demoReq : Create :=
  { sender := accString plainAcc, owner := accString plainAcc, contract := hexString (fun _ => false) cron1636,
    frequency := 10, expiration := 0, gasLimit := 20, maxGasPrice := 3, amount := 100, callback := false }

/-- What is visible of a result. -/
def view (o : Option State) : Option (Nat × List Nat × List (Nat × Bool)) :=
  o.map fun s => (s.bal plainAcc, [s.bal (demo 1), s.bal cron1280], s.crons.map fun c => (c.1, c.2.callback))

example : view (create demo demoStart demoReq) = some (900, [100, 0], [(1, false)]) := by decide +kernel

/-- The owner gets the deposit back… -/
example : view ((create demo demoStart demoReq).bind fun s => cancel s demoReq.owner demoReq.owner 1) =
    some (1000, [0, 0], []) := by decide +kernel

/-- … but not if the wallet is number 1280. -/
example : view ((create demoVal demoStart demoReq).bind fun s => cancel s demoReq.owner demoReq.owner 1) =
    some (900, [0, 100], []) := by decide +kernel

/-- A stranger cannot cancel or change the schedule. -/
example : view ((create demo demoStart demoReq).bind fun s =>
    cancel s (accString cron1636) demoReq.owner 1) = none ∧
    ((create demo demoStart demoReq).bind fun s => update s
      { sender := accString cron1636, id := 1, frequency := 0, expiration := 0, gasLimit := 0, maxGasPrice := 0 }).isNone := by
  decide +kernel

/-- The owner's address in capitals. -/
def demoCap : Create :=
  let cap := (accString plainAcc).map fun b => if 97 ≤ b ∧ b ≤ 122 then b - 32 else b
  { demoReq with sender := cap, owner := cap }

/-- **C75 is false as a whole**: a deposit paid by an account in capitals cannot be recovered. -/
theorem capital_stuck_witness :
    ∃ s, create demo demoStart demoCap = some s ∧ s.bal plainAcc = 900 ∧ s.bal (demo 1) = 100 ∧
      cancel s demoCap.owner demoCap.owner 1 = none ∧
      cancel s demoCap.owner (accString plainAcc) 1 = none := by
  have h : (match create demo demoStart demoCap with
    | none => false
    | some s => s.bal plainAcc == 900 && s.bal (demo 1) == 100 &&
      (cancel s demoCap.owner demoCap.owner 1).isNone &&
      (cancel s demoCap.owner (accString plainAcc) 1).isNone) = true := by decide +kernel
  cases hc : create demo demoStart demoCap with
  | none => rw [hc] at h; cases h
  | some s =>
    rw [hc] at h
    dsimp only at h
    rw [Bool.and_eq_true, Bool.and_eq_true, Bool.and_eq_true] at h
    exact ⟨s, rfl, by simpa using h.1.1.1, by simpa using h.1.1.2, by simpa using h.1.2, by simpa using h.2⟩

theorem fair_demo : Fair demo demoStart (.create demoReq) := fun o ho i _ he => by
  have : fromBech32 accHrp demoReq.sender = some plainAcc := by decide +kernel
  rw [this] at ho
  injection ho with ho
  rw [← ho] at he
  have : (some 1 : Option Nat) = some 77 := show plainAcc.head? = (demo i).head? by rw [he]
  exact absurd this (by decide)

/-- The hypotheses of `deposit_returned_partial` can be met. -/
example : ∃ s1, Reach demo 0 demoStart ∧ IsAddress plainAcc ∧ demoReq.owner = accString plainAcc ∧
    contains valText (accString (demo demoStart.id)) = false ∧ create demo demoStart demoReq = some s1 ∧
    Fair demo demoStart (.create demoReq) ∧ Hist demo s1 [.callback 1 5, .callback 9 9] := by
  have h : (create demo demoStart demoReq).isSome = true := by decide +kernel
  obtain ⟨s1, h1⟩ := Option.isSome_iff_exists.mp h
  exact ⟨s1, Reach.init _ _ _ _ _ (by decide), by decide +kernel, rfl, by decide +kernel, h1, fair_demo,
    trivial, trivial, trivial⟩

end Chronos
