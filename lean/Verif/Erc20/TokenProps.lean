import Verif.Erc20.TokenLemmas3
/-!
# Coins behave as ERC-20 tokens (C81)

The statements about what callers see of the token of a coin, `Face`, and what EIP-20 asks for, are in `TokenSpec.lean`.
-/
namespace Erc20Token

/-! ## An example -/

/-- Everybody may send, account 99 must not receive. -/
def demoCfg : Cfg := ⟨fun d => 1000 + d, fun _ => true, fun a => a == 99, fun _ _ => 0⟩

/-- Account 1 has 100 of coin 0 and 50 of coin 1. -/
def demo : St := ⟨fun a d => if a = 1 ∧ d = 0 then 100 else if a = 1 ∧ d = 1 then 50 else 0, [], 1000, []⟩

/-- Account 1 approves account 2 for 30 of coin 0, which moves 12 to account 3 and 7 to itself, after an increase by 5, and,
after a decrease by 6, tries to move 11 and moves the 10 that are left. -/
def demoOps : List Op :=
  [.call 0 1 (.approve 2 30), .call 0 2 (.transferFrom 1 3 12), .call 0 1 (.increase 2 5), .call 0 2 (.transferFrom 1 2 7),
   .call 1 1 (.transfer 4 50), .call 0 1 (.decrease 2 6), .tick 100, .call 0 2 (.transferFrom 1 2 11),
   .call 0 2 (.transferFrom 1 2 10)]

/-! ## Calls -/

/-- A call that succeeds was permitted, does to the token exactly what EIP-20 says, and changes nothing that callers see of any other
token. -/
theorem calls_do_what_they_must {cfg : Cfg} {s s' : St} {d : Denom} {caller : Addr} {m : Method} (h : call cfg s d caller m = some s') :
    (face s d).permits caller m ∧ face s' d = (face s d).after caller m ∧ ∀ d', d' ≠ d → face s' d' = face s d' :=
  call_face h

example : (call demoCfg (run demoCfg demo (demoOps.take 1)) 0 2 (.transferFrom 1 3 12)).isSome = true := by decide +kernel
example : let s := run demoCfg demo demoOps
    balanceOf s 0 1 = 71 ∧ balanceOf s 0 2 = 17 ∧ balanceOf s 0 3 = 12 ∧ allowance s 0 1 2 = 0 ∧ balanceOf s 1 4 = 50 := by decide +kernel

/-- A permitted call with a positive amount (zero is fine for `approve`) goes through, when nothing but the amount stands in its way.
Missing for `IsErc20`: amounts of zero, approvals of oneself, an approval of zero when the spender has grants of other coins only; see
below. -/
theorem permitted_calls_go_through_partial {cfg : Cfg} {s : St} {d : Denom} {caller : Addr} {m : Method}
    (hmax : m.amount ≤ maxUint) (hp : (face s d).permits caller m) (hz : m.mayBeZero = true ∨ 0 < m.amount)
    (hu : Unhindered cfg s d caller m) : (call cfg s d caller m).isSome = true := by
  unfold call
  rw [if_neg (Nat.not_lt.2 hmax)]
  cases m with
  | transfer dst n =>
    have hn : 0 < n := hz.resolve_left (fun h => nomatch h)
    show ((move cfg s d caller caller dst n).map _).isSome = true
    rw [isSome_map]
    unfold move
    rw [if_neg (by omega), if_pos rfl]
    exact bankSend_ok hn hu.1 hu.2.1 hu.2.2 hp
  | transferFrom src dst n =>
    have hn : 0 < n := hz.resolve_left (fun h => nomatch h)
    obtain ⟨he, hb, hl, hg⟩ := hu
    show ((move cfg s d caller src dst n).map _).isSome = true
    rw [isSome_map]
    unfold move
    rw [if_neg (by omega)]
    by_cases hc : caller = src
    · rw [if_pos hc]; exact bankSend_ok hn he hb hl hp.1
    · rw [if_neg hc]
      have hle : n ≤ allowance s d src caller := hp.2.resolve_left hc
      rw [allowance_eq, if_neg (fun x => hc x.symm)] at hle
      cases hlv : live s src caller with
      | none =>
        rw [hlv] at hle
        have : n ≤ 0 := hle
        omega
      | some g =>
        obtain ⟨L, hL⟩ := hg g hlv
        rw [hlv] at hle
        obtain ⟨a, e⟩ := g
        cases hL
        have hle' : n ≤ amountOf L d := hle
        simp only [authzAllowance, hlv, dispatch]
        have hsp : ∃ s1, spend s src caller dst d n L [] e = some s1 := by
          unfold spend limitSub
          rw [if_neg (by omega)]
          by_cases hx : amountOf L d = n
          · rw [if_pos hx]
            dsimp only
            rw [if_neg (fun y => y.1 rfl)]
            split
            · exact ⟨_, rfl⟩
            · exact ⟨_, rfl⟩
          · rw [if_neg hx]
            dsimp only
            rw [if_neg (fun y => y.1 rfl)]
            split
            · exact ⟨_, rfl⟩
            · exact ⟨_, rfl⟩
        obtain ⟨s1, hs1⟩ := hsp
        rw [hs1]
        show (bankSend cfg s1 src dst d n).isSome = true
        have hbal := (spend_regrants (live_notexpired hlv) hs1).2.bal
        exact bankSend_ok hn he hb hl (by rw [hbal]; exact hp.1)
  | approve p n =>
    obtain ⟨hne, hg, h0⟩ := hu
    show ((approveChange s d caller p n).map _).isSome = true
    rw [isSome_map]
    unfold approveChange
    rw [if_neg hne]
    cases hlv : live s caller p with
    | none =>
      dsimp only
      split
      · rfl
      · exact createAuth_ok ..
    | some g =>
      obtain ⟨⟨L, hL⟩, hx⟩ := hg g hlv
      have hexp := live_notexpired hlv
      obtain ⟨a, e⟩ := g
      cases hL
      dsimp only
      split
      · rename_i hn
        have hpos : 0 < allowance s d caller p := (h0 hn).resolve_left (by rw [hlv]; exact fun h => nomatch h)
        rw [allowance_eq, if_neg (fun x => hne x.symm), hlv] at hpos
        exact removeLimit_ok hexp hx hpos
      · exact saveGrant_ok hexp hx
  | increase p n =>
    have hn : 0 < n := hz.resolve_left (fun h => nomatch h)
    obtain ⟨hne, hg⟩ := hu
    show (increaseAllowance cfg s d caller p n).isSome = true
    unfold increaseAllowance
    rw [if_neg hne, if_neg (by omega)]
    have hp' : allowance s d caller p + n ≤ maxUint := hp
    rw [allowance_eq, if_neg (fun x => hne x.symm)] at hp'
    cases hlv : live s caller p with
    | none =>
      dsimp only
      rw [isSome_map]
      exact createAuth_ok ..
    | some g =>
      obtain ⟨⟨L, hL⟩, hx⟩ := hg g hlv
      have hexp := live_notexpired hlv
      obtain ⟨a, e⟩ := g
      cases hL
      rw [hlv] at hp'
      have hp2 : amountOf L d + n ≤ maxUint := hp'
      dsimp only
      rw [if_neg (Nat.not_lt.2 hp2), isSome_map]
      exact saveGrant_ok hexp hx
  | decrease p n =>
    have hn : 0 < n := hz.resolve_left (fun h => nomatch h)
    obtain ⟨hne, hg⟩ := hu
    show (decreaseAllowance cfg s d caller p n).isSome = true
    unfold decreaseAllowance
    rw [if_neg hne, if_neg (by omega)]
    have hp' : n ≤ allowance s d caller p := hp
    rw [allowance_eq, if_neg (fun x => hne x.symm)] at hp'
    cases hlv : live s caller p with
    | none =>
      rw [hlv] at hp'
      have : n ≤ 0 := hp'
      omega
    | some g =>
      obtain ⟨⟨L, hL⟩, hx⟩ := hg g hlv
      have hexp := live_notexpired hlv
      obtain ⟨a, e⟩ := g
      cases hL
      rw [hlv] at hp'
      have hle : n ≤ amountOf L d := hp'
      simp only [authzAllowance, hlv]
      rw [isSome_map]
      unfold decreaseChange
      split
      · exact saveGrant_ok hexp hx
      · rw [if_pos (by omega)]
        exact removeLimit_ok hexp hx (by omega)

example : Unhindered demoCfg demo 0 1 (.transfer 2 100) ∧ (face demo 0).permits 1 (.transfer 2 100) ∧ 0 < (Method.transfer 2 100).amount :=
  ⟨⟨rfl, by decide, rfl⟩, by show 100 ≤ balanceOf demo 0 1; decide +kernel, by decide⟩

/-! ## Histories -/

/-- Whoever loses coins acted, or the module that burns did, or the one who acted had an allowance for it (or an authorisation of all
sends). -/
theorem only_the_owner_or_the_approved_take {cfg : Cfg} {s s' : St} {op : Op} (h : step cfg s op = some s') (d : Denom) (a : Addr)
    (hlt : balanceOf s' d a < balanceOf s d a) :
    (∃ n, op = .burn a d n) ∨ ∃ p, actor op = some p ∧
      (p = a ∨ balanceOf s d a - balanceOf s' d a ≤ allowance s d a p ∨ ∃ e, live s a p = some ⟨.generic, e⟩) := by
  by_cases hb : ∃ x n, op = .burn x d n
  · obtain ⟨x, n, rfl⟩ := hb
    simp only [step] at h
    split at h
    · cases h
    · cases h
      simp only [balanceOf, setBal, and_true] at hlt
      by_cases hx : a = x
      · subst hx; exact .inl ⟨n, rfl⟩
      · rw [if_neg hx] at hlt
        exact absurd hlt (Nat.lt_irrefl _)
  · by_cases hm : ∃ x n, op = .mint x d n
    · obtain ⟨x, n, rfl⟩ := hm
      cases h
      simp only [balanceOf, setBal, and_true] at hlt
      by_cases hx : a = x
      · subst hx; rw [if_pos rfl] at hlt; omega
      · rw [if_neg hx] at hlt
        exact absurd hlt (Nat.lt_irrefl _)
    · right
      rcases step_balance h d (fun x n e => hm ⟨x, n, e⟩) (fun x n e => hb ⟨x, n, e⟩) with hk | ⟨src, dst, n, p, hpos, hle, hk, hp, hal⟩
      · rw [hk] at hlt; exact absurd hlt (Nat.lt_irrefl _)
      · refine ⟨p, hp, ?_⟩
        have hf : ∀ x, (face s d).balance x = balanceOf s d x := fun _ => rfl
        rw [hk] at hlt ⊢
        simp only [Face.move, hf] at hlt ⊢
        by_cases h1 : src = dst
        · rw [if_pos h1] at hlt; exact absurd hlt (Nat.lt_irrefl _)
        · rw [if_neg h1] at hlt ⊢
          by_cases h2 : a = src
          · subst h2
            rw [if_pos rfl] at hlt ⊢
            rcases hal with h3 | h3 | h3
            · exact .inl h3
            · exact .inr (.inl (by omega))
            · exact .inr (.inr h3)
          · rw [if_neg h2] at hlt
            by_cases h3 : a = dst
            · rw [if_pos h3] at hlt; omega
            · rw [if_neg h3] at hlt; exact absurd hlt (Nat.lt_irrefl _)

example : let s := run demoCfg demo (demoOps.take 1)
    balanceOf (next demoCfg s (.call 0 2 (.transferFrom 1 3 12))) 0 1 < balanceOf s 0 1 := by decide +kernel

/-- An allowance changes only when its owner acts, or its spender uses it and then by exactly what is moved, or when the grant has come to
its time of expiry. -/
theorem allowances_are_the_owners {cfg : Cfg} {s s' : St} {op : Op} (h : step cfg s op = some s') (d : Denom) {o p : Addr} (hne : o ≠ p)
    (hch : allowance s' d o p ≠ allowance s d o p) :
    actor op = some o ∨
    (actor op = some p ∧ 0 < spentBy d o p op ∧ allowance s' d o p + spentBy d o p op = allowance s d o p) ∨
    (allowance s' d o p = 0 ∧ ∃ g e, KV.get s.grants (o, p) = some g ∧ g.expiry = some e ∧ e ≤ s'.now) := step_allowance h d hne hch

example : let s := run demoCfg demo (demoOps.take 1)
    allowance (next demoCfg s (.call 0 2 (.transferFrom 1 3 12))) 0 1 2 = 18 ∧ allowance s 0 1 2 = 30 := by decide +kernel

/-- A revocation leaves the spender without any allowance, for every coin. -/
theorem revocation_ends_allowances {cfg : Cfg} {s s' : St} {o p : Addr} (hne : o ≠ p) (h : step cfg s (.revoke o p) = some s') (d : Denom) :
    allowance s' d o p = 0 := by
  simp only [step] at h
  split at h
  · cases h
  · cases h
    rw [allowance_eq, if_neg hne, live_del, if_pos ⟨rfl, rfl⟩]; rfl

example : (step demoCfg (run demoCfg demo (demoOps.take 1)) (.revoke 1 2)).isSome = true := by decide +kernel

/-- Over a history of any length a spender moves no more of an owner's coins than the owner granted: what was spent and what is left of
the allowance come to no more than the allowance at the start and all that was approved, added and granted since. -/
theorem spending_stays_within_grants {cfg : Cfg} {s : St} {os : List Op} {owner spender : Addr} (hne : owner ≠ spender)
    (hg : NoGeneric s owner spender os) (d : Denom) :
    total cfg (spentBy d owner spender) s os + allowance (run cfg s os) d owner spender ≤
      allowance s d owner spender + total cfg (grantedBy d owner spender) s os := by
  obtain ⟨hL, hn⟩ := hg
  induction os generalizing s with
  | nil => simp only [total, run, List.foldl_nil]; omega
  | cons op os ih =>
    rw [run_cons]
    have hop : ∀ e, op ≠ .grant owner spender ⟨.generic, e⟩ := fun e x => hn e (x ▸ List.mem_cons_self)
    have hn' : ∀ e, Op.grant owner spender ⟨.generic, e⟩ ∉ os := fun e x => hn e (List.mem_cons_of_mem _ x)
    simp only [total]
    cases h : step cfg s op with
    | none =>
      rw [next_of_none h]
      have := ih hL hn'
      simp only [Option.isSome_none, Bool.false_eq_true, if_false]
      omega
    | some s' =>
      rw [next_of_some h]
      have h1 := ih (step_fresh h hL hop) hn'
      have h2 := step_spend h d hne hL hop
      simp only [Option.isSome_some, if_true]
      omega

example : NoGeneric demo 1 2 demoOps ∧ total demoCfg (spentBy 0 1 2) demo demoOps = 29 ∧ total demoCfg (grantedBy 0 1 2) demo demoOps = 35 :=
  ⟨⟨fun g hg => (nomatch hg), fun e h => by simp [demoOps] at h⟩, by decide +kernel, by decide +kernel⟩

/-- The logs are only added to, and as long as coins move through tokens the `Transfer` logs of a token, replayed on the balances at the
start, give its balances, for all accounts. -/
theorem transfer_logs_tell_balances {cfg : Cfg} (hinj : ∀ d d', cfg.tokenOf d = cfg.tokenOf d' → d = d') {s : St} {os : List Op}
    (ho : ∀ op ∈ os, tokenOnly op = true) (d : Denom) :
    ∃ es, (run cfg s os).log = s.log ++ es ∧ replay (cfg.tokenOf d) (balanceOf s d) es = balanceOf (run cfg s os) d := by
  induction os generalizing s with
  | nil => exact ⟨[], (List.append_nil _).symm, rfl⟩
  | cons op os ih =>
    rw [run_cons]
    obtain ⟨es, h1, h2⟩ := ih (s := next cfg s op) (fun x hx => ho x (List.mem_cons_of_mem _ hx))
    cases h : step cfg s op with
    | none => rw [next_of_none h] at h1 h2 ⊢; exact ⟨es, h1, h2⟩
    | some s' =>
      rw [next_of_some h] at h1 h2 ⊢
      obtain ⟨es0, h3, h4⟩ := step_replay hinj h (ho op List.mem_cons_self) d
      refine ⟨es0 ++ es, ?_, ?_⟩
      · rw [h1, h3, List.append_assoc]
      · rw [replay_append, h4, h2]

example : (∀ d d', demoCfg.tokenOf d = demoCfg.tokenOf d' → d = d') ∧ ∀ op ∈ demoOps, tokenOnly op = true :=
  ⟨fun d d' (h : 1000 + d = 1000 + d') => Nat.add_left_cancel h, by decide⟩

/-- No event but minting and burning changes how much of a coin there is. -/
theorem coins_neither_appear_nor_vanish {cfg : Cfg} {s s' : St} {op : Op} (h : step cfg s op = some s') {d : Denom}
    (hm : ∀ a n, op ≠ .mint a d n) (hb : ∀ a n, op ≠ .burn a d n) {L : List Addr} (h1 : Holders s d L) (h2 : Holders s' d L) :
    held s' d L = held s d L := by
  unfold held
  rcases step_balance h d hm hb with hk | ⟨src, dst, n, p, hpos, hle, hk, _, _⟩
  · rw [hk]
  · have hsrc : src ∈ L := by
      by_cases hx : src ∈ L
      · exact hx
      · have := h1.2 src hx; omega
    by_cases hsd : src = dst
    · have : balanceOf s' d = balanceOf s d := by
        rw [hk]; funext a; simp only [Face.move, if_pos hsd]; rfl
      rw [this]
    · have hdst : dst ∈ L := by
        by_cases hx : dst ∈ L
        · exact hx
        · have := h2.2 dst hx
          rw [hk] at this
          simp only [Face.move, if_neg hsd, if_neg (fun x => hsd (Eq.symm x))] at this
          simp only [if_true] at this
          omega
      rw [hk]
      exact sum_move h1.1 hsrc hdst (face s d) hle

example : Holders demo 1 [1, 4] ∧ Holders (next demoCfg demo (.call 1 1 (.transfer 4 50))) 1 [1, 4] := by
  refine ⟨⟨by decide, fun a ha => ?_⟩, ⟨by decide, fun a ha => ?_⟩⟩
  · simp only [List.mem_cons, List.not_mem_nil, or_false, not_or] at ha
    simp [balanceOf, demo, ha.1]
  · simp only [List.mem_cons, List.not_mem_nil, or_false, not_or] at ha
    simp [balanceOf, next, step, call, handle, transfer, move, bankSend, demo, demoCfg, setBal, emit, Method.amount, maxUint, ha.1, ha.2]

/-- An approval of a spender who had none lasts one year to the second. -/
theorem approval_lasts_a_year {cfg : Cfg} {s s' : St} {d : Denom} {owner spender : Addr} {n : Nat} (hn : 0 < n)
    (hnone : live s owner spender = none) (h : call cfg s d owner (.approve spender n) = some s') (t : Nat) :
    allowance (next cfg s' (.tick t)) d owner spender = if t ≤ 365 * 24 * 3600 then n else 0 := by
  obtain ⟨_, h⟩ := call_handle h
  obtain ⟨s1, h1, rfl⟩ := emitMap (f := approveChange s d owner spender n) h
  have hne : owner ≠ spender := (approveChange_sets h1).ne
  unfold approveChange at h1
  rw [if_neg (fun x => hne x.symm), hnone] at h1
  dsimp only at h1
  rw [if_neg (by omega)] at h1
  obtain ⟨_, rfl⟩ := saveGrant_eq h1
  rw [allowance_eq, if_neg hne]
  have hg : live (next cfg (emit { s with grants := KV.set s.grants (owner, spender) ⟨.send [(d, n)] [], some (s.now + year)⟩ }
      (.approval (cfg.tokenOf d) (cfg.tokenOf d) spender n)) (.tick t)) owner spender =
      if s.now + year < s.now + t then none else some ⟨.send [(d, n)] [], some (s.now + year)⟩ := by
    unfold live
    show (match KV.get (KV.set s.grants (owner, spender) ⟨.send [(d, n)] [], some (s.now + year)⟩) (owner, spender) with
      | none => none
      | some g => match g.expiry with
        | none => some g
        | some e => if e < s.now + t then none else some g) = _
    rw [KV.get_set, if_pos rfl]
  rw [hg]
  by_cases ht : t ≤ 365 * 24 * 3600
  · rw [if_pos ht, if_neg (by unfold year; omega)]
    simp [grantAmount, amountOf, KV.get_cons]
  · rw [if_neg ht, if_pos (by unfold year; omega)]; rfl

example : live demo 1 2 = none ∧ (call demoCfg demo 0 1 (.approve 2 30)).isSome = true := by decide +kernel

/-! ## Where it is not an ERC-20 token -/

/-- Transfers of zero, which EIP-20 wants treated as normal transfers, fail, whoever calls. -/
theorem zero_amounts_fail (cfg : Cfg) (s : St) (d : Denom) (caller : Addr) (m : Method) (hz : m.mayBeZero = false) (h0 : m.amount = 0) :
    call cfg s d caller m = none := by
  cases h : call cfg s d caller m with
  | none => rfl
  | some s' =>
    obtain ⟨_, h⟩ := call_handle h
    cases m with
    | transfer dst n => obtain ⟨s1, _, hm⟩ := transfer_moves h; have := hm.pos; have h0 : n = 0 := h0; omega
    | transferFrom src dst n => obtain ⟨s1, _, hm, _⟩ := transferFrom_moves h; have := hm.pos; have h0 : n = 0 := h0; omega
    | approve p n => cases hz
    | increase p n => obtain ⟨s1, _, hm, _⟩ := increase_sets h; have h0 : n = 0 := h0; omega
    | decrease p n => obtain ⟨s1, _, hm, _⟩ := decrease_sets h; have h0 : n = 0 := h0; omega

/-- So no coin is an ERC-20 token in the full sense, in any state. -/
theorem never_quite_an_erc20 (cfg : Cfg) (s : St) (d : Denom) : ¬ IsErc20 cfg s d := by
  intro h
  have := ((h 0 (.transfer 0 0) (Nat.zero_le _)).1.1 (Nat.zero_le _))
  rw [zero_amounts_fail cfg s d 0 (.transfer 0 0) rfl rfl] at this
  cases this

/-- An approval of zero fails when the owner's live grant to the spender is for another coin; EIP-20 permits it. -/
theorem approval_of_zero_may_fail : ∃ cfg s os d owner spender, (face (run cfg s os) d).permits owner (.approve spender 0) ∧
    live (run cfg s []) owner spender = none ∧ call cfg (run cfg s os) d owner (.approve spender 0) = none := by
  refine ⟨demoCfg, demo, [.call 0 1 (.approve 2 10)], 1, 1, 2, trivial, rfl, ?_⟩
  have : (call demoCfg (run demoCfg demo [.call 0 1 (.approve 2 10)]) 1 1 (.approve 2 0)).isSome = false := by decide +kernel
  cases h : call demoCfg (run demoCfg demo [.call 0 1 (.approve 2 10)]) 1 1 (.approve 2 0) with
  | none => rfl
  | some x => rw [h] at this; cases this

/-- An approval for a year made while an older grant to the same spender lives, be it for another coin, ends with the older grant: here
coin 1 is approved 364 days after coin 0, and is gone two days later. -/
theorem later_approval_ends_with_the_first : ∃ cfg s, live s 1 2 = none ∧
    let os := [.call 0 1 (.approve 2 10), .tick (364 * 24 * 3600), .call 1 1 (.approve 2 20)]
    allowance (run cfg s os) 1 1 2 = 20 ∧ allowance (run cfg s (os ++ [.tick (2 * 24 * 3600)])) 1 1 2 = 0 :=
  ⟨demoCfg, demo, rfl, by decide +kernel, by decide +kernel⟩

/-- The log of `approve` names the token as the owner of the coins, never the caller (unless the token calls itself). -/
theorem approve_log_names_the_token {cfg : Cfg} {s s' : St} {d : Denom} {owner spender : Addr} {n : Nat}
    (h : call cfg s d owner (.approve spender n) = some s') :
    s'.log = s.log ++ [.approval (cfg.tokenOf d) (cfg.tokenOf d) spender n] := call_log h

/-- So the `Approval` logs do not tell the allowances. -/
theorem approvals_are_not_told : ¬ ∀ cfg s d, ApprovalsTold cfg s d := by
  intro h
  have hs : call demoCfg demo 0 1 (.approve 2 30) = some (next demoCfg demo (.call 0 1 (.approve 2 30))) := by
    cases hc : call demoCfg demo 0 1 (.approve 2 30) with
    | none =>
      have : (call demoCfg demo 0 1 (.approve 2 30)).isSome = true := by decide +kernel
      rw [hc] at this; cases this
    | some x =>
      show some x = some ((step demoCfg demo (.call 0 1 (.approve 2 30))).getD demo)
      have : step demoCfg demo (.call 0 1 (.approve 2 30)) = some x := hc
      rw [this]; rfl
  have := h demoCfg demo 0 1 (.approve 2 30) _ hs 1 2 (by decide) (by decide +kernel)
  exact absurd this (by decide +kernel)

theorem lastApproval_append (token o p : Addr) (es : List Event) (n : Nat) :
    lastApproval token o p (es ++ [.approval token o p n]) = some n := by
  unfold lastApproval
  rw [List.foldl_append]
  simp

/-- Only the spending of an allowance is told rightly. Missing for `ApprovalsTold`: `approve`, `increaseAllowance`,
`decreaseAllowance`. -/
theorem spending_is_told_partial {cfg : Cfg} {s s' : St} {d : Denom} {caller src dst : Addr} {n : Nat}
    (h : call cfg s d caller (.transferFrom src dst n) = some s') (o p : Addr) (hne : o ≠ p)
    (hch : allowance s' d o p ≠ allowance s d o p) : lastApproval (cfg.tokenOf d) o p s'.log = some (allowance s' d o p) := by
  have hlog := call_log h
  obtain ⟨_, hf, _⟩ := call_face h
  have ha := face_allowance hf o p
  have hfa : ∀ x y, (face s d).allowance x y = allowance s d x y := fun _ _ => rfl
  simp only [Face.after] at ha
  by_cases hc : caller = src
  · rw [if_pos hc] at ha
    exact absurd ha hch
  · rw [if_neg hc] at ha
    simp only [Face.allow, Face.move, hfa] at ha
    by_cases hx : o = src ∧ p = caller
    · obtain ⟨rfl, rfl⟩ := hx
      rw [if_pos ⟨rfl, rfl⟩] at ha
      rw [hlog, ha]
      simp only [addedLogs, newAllowance, if_neg hc]
      rw [show ∀ a b : Event, s.log ++ [a, b] = (s.log ++ [a]) ++ [b] from fun a b => by simp]
      exact lastApproval_append ..
    · rw [if_neg hx] at ha
      exact absurd ha hch

example : let s := run demoCfg demo (demoOps.take 1)
    (call demoCfg s 0 2 (.transferFrom 1 3 12)).isSome = true ∧ allowance (next demoCfg s (.call 0 2 (.transferFrom 1 3 12))) 0 1 2 ≠ allowance s 0 1 2 := by
  decide +kernel

end Erc20Token
