import Verif.Erc20.TokenLemmas
/-! # Lemmas about histories of coins as ERC-20 tokens -/
namespace Erc20Token

theorem call_handle {cfg : Cfg} {s s' : St} {d : Denom} {caller : Addr} {m : Method} (h : call cfg s d caller m = some s') :
    m.amount ≤ maxUint ∧ handle cfg s d caller m = some s' := by
  unfold call at h
  split at h
  · cases h
  · rename_i hm
    exact ⟨Nat.le_of_not_lt hm, h⟩

theorem transfer_moves {cfg : Cfg} {s s' : St} {d : Denom} {caller dst : Addr} {n : Nat} (h : transfer cfg s d caller dst n = some s') :
    ∃ s1, s' = emit s1 (.transfer (cfg.tokenOf d) caller dst n) ∧ Moves s s1 caller caller dst d n := by
  obtain ⟨s1, h1, h2⟩ := emitMap h
  exact ⟨s1, h2, (move_moves h1).1⟩

theorem transferFrom_moves {cfg : Cfg} {s s' : St} {d : Denom} {caller src dst : Addr} {n : Nat}
    (h : transferFrom cfg s d caller src dst n = some s') :
    ∃ s1, s' = emit (emit s1 (.transfer (cfg.tokenOf d) src dst n)) (.approval (cfg.tokenOf d) src caller (newAllowance s d caller src n)) ∧
      Moves s s1 caller src dst d n ∧ (caller ≠ src → ∃ L A e, live s src caller = some ⟨.send L A, e⟩) := by
  unfold transferFrom at h
  cases hm : move cfg s d caller src dst n with
  | none => rw [hm] at h; cases h
  | some s1 =>
    rw [hm] at h
    simp only [Option.map_some, Option.some.injEq] at h
    exact ⟨s1, h.symm, move_moves hm⟩

theorem approve_sets {cfg : Cfg} {s s' : St} {d : Denom} {o p : Addr} {n : Nat} (h : approve cfg s d o p n = some s') :
    ∃ s1, s' = emit s1 (.approval (cfg.tokenOf d) (cfg.tokenOf d) p n) ∧ Sets s s1 d o p n := by
  obtain ⟨s1, h1, h2⟩ := emitMap h
  exact ⟨s1, h2, approveChange_sets h1⟩

theorem call_fresh {cfg : Cfg} {s s' : St} {d : Denom} {caller : Addr} {m : Method} (h : call cfg s d caller m = some s') :
    NoNewGeneric s s' := by
  obtain ⟨_, h⟩ := call_handle h
  cases m with
  | transfer dst n => obtain ⟨s1, rfl, hm⟩ := transfer_moves h; exact hm.fresh
  | transferFrom src dst n => obtain ⟨s1, rfl, hm, _⟩ := transferFrom_moves h; exact hm.fresh
  | approve p n => obtain ⟨s1, rfl, hm⟩ := approve_sets h; exact hm.fresh
  | increase p n => obtain ⟨s1, rfl, _, _, hm⟩ := increase_sets h; exact hm.fresh
  | decrease p n => obtain ⟨s1, rfl, _, _, hm⟩ := decrease_sets h; exact hm.fresh

/-- Every successful call does to its token what it must and nothing to the other tokens. -/
theorem call_face {cfg : Cfg} {s s' : St} {d : Denom} {caller : Addr} {m : Method} (h : call cfg s d caller m = some s') :
    (face s d).permits caller m ∧ face s' d = (face s d).after caller m ∧ ∀ d', d' ≠ d → face s' d' = face s d' := by
  obtain ⟨hmax, h⟩ := call_handle h
  cases m with
  | transfer dst n =>
    obtain ⟨s1, rfl, hm⟩ := transfer_moves h
    have hf := hm.face (fun h => absurd rfl h)
    rw [if_pos rfl] at hf
    exact ⟨hm.enough, hf⟩
  | transferFrom src dst n =>
    obtain ⟨s1, rfl, hm, hs⟩ := transferFrom_moves h
    refine ⟨⟨hm.enough, ?_⟩, hm.face hs⟩
    by_cases hc : caller = src
    · exact .inl hc
    · exact .inr (hm.permitted hs hc)
  | approve p n =>
    obtain ⟨s1, rfl, hm⟩ := approve_sets h
    exact ⟨trivial, hm.face⟩
  | increase p n =>
    obtain ⟨s1, rfl, _, hle, hm⟩ := increase_sets h
    exact ⟨hle hmax, hm.face⟩
  | decrease p n =>
    obtain ⟨s1, rfl, _, hle, hm⟩ := decrease_sets h
    exact ⟨hle, hm.face⟩

theorem face_allowance {s' : St} {d : Denom} {f : Face} (h : face s' d = f) (o p : Addr) : allowance s' d o p = f.allowance o p := by
  rw [← h]; rfl

theorem face_balance {s' : St} {d : Denom} {f : Face} (h : face s' d = f) (a : Addr) : balanceOf s' d a = f.balance a := by
  rw [← h]; rfl

theorem saveGrant_eq {s s' : St} {o p : Addr} {g : Grant} (h : saveGrant s o p g = some s') :
    (∀ e, g.expiry = some e → ¬ e < s.now) ∧ s' = { s with grants := KV.set s.grants (o, p) g } := by
  unfold saveGrant at h
  cases he : g.expiry with
  | none =>
    rw [he] at h
    simp only [Option.some.injEq] at h
    exact ⟨fun x hx => (nomatch hx), h.symm⟩
  | some x =>
    rw [he] at h
    dsimp only at h
    by_cases hx : x ≤ s.now
    · rw [if_pos hx] at h; cases h
    · rw [if_neg hx] at h
      simp only [Option.some.injEq] at h
      refine ⟨fun y hy => ?_, h.symm⟩
      cases hy
      omega

theorem live_tick_le (s : St) (t : Nat) (d : Denom) (o p : Addr) :
    grantAmount d (live { s with now := s.now + t } o p) ≤ grantAmount d (live s o p) := by
  unfold live
  dsimp only
  cases KV.get s.grants (o, p) with
  | none => exact Nat.le_refl _
  | some g =>
    dsimp only
    cases g.expiry with
    | none => exact Nat.le_refl _
    | some e =>
      dsimp only
      by_cases h : e < s.now
      · rw [if_pos (by omega), if_pos h]; exact Nat.le_refl _
      · rw [if_neg h]
        by_cases h2 : e < s.now + t
        · rw [if_pos h2]; exact Nat.zero_le _
        · rw [if_neg h2]; exact Nat.le_refl _

/-- No generic authorisation of `spender` by `owner` is stored. -/
def Limited (s : St) (o p : Addr) : Prop := ∀ g, KV.get s.grants (o, p) = some g → g.auth ≠ .generic

theorem Limited.live_send {s : St} {o p : Addr} (h : Limited s o p) {g : Grant} (hl : live s o p = some g) :
    ∃ L A e, live s o p = some ⟨.send L A, e⟩ := by
  have := h g (live_stored hl)
  obtain ⟨a, e⟩ := g
  cases a with
  | generic => exact absurd rfl this
  | send L A => exact ⟨L, A, e, hl⟩

theorem dispatch_live {cfg : Cfg} {s s' : St} {src caller dst : Addr} {d : Denom} {n : Nat} (h : dispatch cfg s src caller dst d n = some s') :
    ∃ g, live s src caller = some g := by
  unfold dispatch at h
  cases hl : live s src caller with
  | none => rw [hl] at h; cases h
  | some g => exact ⟨g, rfl⟩

theorem step_fresh {cfg : Cfg} {s s' : St} {op : Op} (h : step cfg s op = some s') {o p : Addr} (hL : Limited s o p)
    (hop : ∀ e, op ≠ .grant o p ⟨.generic, e⟩) : Limited s' o p := by
  have key : NoNewGeneric s s' → Limited s' o p := fun hn g hg => (hn o p g hg).elim id (hL g)
  cases op with
  | call d c m => exact key (call_fresh h)
  | send src dst d n => exact key (.same (bankSend_sends h).grants)
  | grant a b g =>
    simp only [step] at h
    split at h
    · cases h
    · obtain ⟨_, rfl⟩ := saveGrant_eq h
      intro g' hg'
      dsimp only at hg'
      rw [KV.get_set] at hg'
      split at hg'
      · rename_i hab
        cases hab
        cases hg'
        intro hx
        obtain ⟨au, e⟩ := g
        have hx' : au = .generic := hx
        subst hx'
        exact hop e rfl
      · exact hL g' hg'
  | revoke a b =>
    simp only [step] at h
    split at h
    · cases h
    · cases h; exact key (.del _ _ _)
  | exec a b dst d n =>
    simp only [step] at h
    split at h
    · cases h
    · split at h
      · exact key (.same (bankSend_sends h).grants)
      · rename_i _ hne
        exact key (dispatch_moves (fun x => hne x.symm) h).fresh
  | mint a d n => cases h; exact hL
  | burn a d n =>
    simp only [step] at h
    split at h
    · cases h
    · cases h; exact hL
  | tick t => cases h; exact hL
  | purge a b =>
    simp only [step, purge] at h
    split at h
    · cases h
    · split at h
      · cases h
      · split at h
        · cases h; exact key (.del _ _ _)
        · cases h

theorem del_le (s : St) (a b : Addr) (d : Denom) (o p : Addr) : allowance (deleteGrant s a b) d o p ≤ allowance s d o p := by
  rw [allowance_eq, allowance_eq, live_del]
  by_cases h : o = p
  · rw [if_pos h, if_pos h]; exact Nat.le_refl _
  · rw [if_neg h, if_neg h]
    split
    · exact Nat.zero_le _
    · exact Nat.le_refl _

/-- One event: what is spent comes out of the allowance, and the allowance grows by no more than what is granted. -/
theorem step_spend {cfg : Cfg} {s s' : St} {op : Op} (h : step cfg s op = some s') (d : Denom) {o p : Addr} (hne : o ≠ p)
    (hL : Limited s o p) (hop : ∀ e, op ≠ .grant o p ⟨.generic, e⟩) :
    spentBy d o p op + allowance s' d o p ≤ allowance s d o p + grantedBy d o p op := by
  cases op with
  | call d' c m =>
    obtain ⟨hp, hf, ho⟩ := call_face h
    by_cases hd : d' = d
    · subst hd
      have ha := face_allowance hf o p
      have hfa : ∀ x y, (face s d').allowance x y = allowance s d' x y := fun _ _ => rfl
      cases m with
      | transfer dst n =>
        rw [ha]; simp [spentBy, grantedBy, Face.after, Face.move, hfa]
      | transferFrom src dst n =>
        obtain ⟨_, hp⟩ := hp
        rw [ha]
        simp only [spentBy, grantedBy, Face.after, true_and]
        by_cases hc : c = src
        · rw [if_pos hc, if_neg (by rintro ⟨rfl, rfl⟩; exact hne hc.symm)]
          simp [Face.move, hfa]
        · have hp := hp.resolve_left hc
          rw [if_neg hc]
          simp only [Face.allow, Face.move]
          rw [hfa] at hp ⊢
          by_cases hx : o = src ∧ p = c
          · obtain ⟨rfl, rfl⟩ := hx
            rw [if_pos ⟨rfl, rfl⟩, if_pos ⟨rfl, rfl⟩]
            omega
          · rw [if_neg hx, if_neg (fun y => hx ⟨y.2.symm, y.1.symm⟩), hfa]
            omega
      | approve q n =>
        rw [ha]
        simp only [spentBy, grantedBy, Face.after, Face.allow, hfa]
        by_cases hx : o = c ∧ p = q
        · rw [if_pos hx, if_pos ⟨trivial, hx.1.symm, hx.2.symm⟩]; omega
        · rw [if_neg hx]; omega
      | increase q n =>
        rw [ha]
        simp only [spentBy, grantedBy, Face.after, Face.allow, hfa]
        by_cases hx : o = c ∧ p = q
        · rw [if_pos hx, if_pos ⟨trivial, hx.1.symm, hx.2.symm⟩, hx.1, hx.2]; omega
        · rw [if_neg hx]; omega
      | decrease q n =>
        rw [ha]
        simp only [spentBy, grantedBy, Face.after, Face.allow, hfa]
        by_cases hx : o = c ∧ p = q
        · rw [if_pos hx, hx.1, hx.2]; omega
        · rw [if_neg hx]; omega
    · have ha := face_allowance (ho d (fun x => hd x.symm)) o p
      have hz : spentBy d o p (.call d' c m) = 0 := by
        cases m <;> simp only [spentBy]
        rw [if_neg (fun x => hd x.1)]
      rw [ha, hz]
      show 0 + allowance s d o p ≤ _
      omega
  | send src dst d' n =>
    have hs := bankSend_sends h
    rw [allowance_congr hs.grants hs.now]
    simp only [spentBy, grantedBy]; omega
  | grant a b g =>
    simp only [step] at h
    split at h
    · cases h
    · obtain ⟨he, rfl⟩ := saveGrant_eq h
      rw [allowance_eq, live_set s a b g he]
      obtain ⟨au, e⟩ := g
      by_cases hx : o = a ∧ p = b
      · obtain ⟨rfl, rfl⟩ := hx
        rw [if_neg hne, if_pos ⟨rfl, rfl⟩]
        cases au with
        | generic => exact absurd rfl (hop e)
        | send L A =>
          simp only [spentBy, grantedBy, grantAmount, true_and, if_true]
          omega
      · rw [if_neg hx, ← allowance_eq]
        simp only [spentBy]; omega
  | revoke a b =>
    simp only [step] at h
    split at h
    · cases h
    · cases h
      have := del_le s a b d o p
      simp only [spentBy]; omega
  | exec a b dst d' n =>
    simp only [step] at h
    split at h
    · cases h
    · split at h
      · rename_i _ hab
        have hs := bankSend_sends h
        rw [allowance_congr hs.grants hs.now]
        simp only [spentBy]
        rw [if_neg (by rintro ⟨_, rfl, rfl⟩; exact hne hab)]
        omega
      · rename_i _ hab
        have hm := dispatch_moves (fun x => hab x.symm) h
        by_cases hx : o = a ∧ p = b
        · obtain ⟨rfl, rfl⟩ := hx
          obtain ⟨g, hg⟩ := dispatch_live h
          have hs : p ≠ o → ∃ L A e, live s o p = some ⟨.send L A, e⟩ := fun _ => hL.live_send hg
          have hal := hm.allowance hs d o p
          simp only [spentBy]
          by_cases hd : d' = d
          · subst hd
            rw [if_pos ⟨fun x => hab x.symm, rfl, rfl, rfl⟩] at hal
            have := hm.permitted hs (fun x => hab x.symm)
            rw [hal, if_pos ⟨rfl, trivial, trivial⟩]; omega
          · rw [if_neg (fun x => hd x.2.1.symm)] at hal
            rw [hal, if_neg (fun x => hd x.1)]; omega
        · rw [allowance_eq, hm.other o p hx, ← allowance_eq]
          simp only [spentBy]
          rw [if_neg (fun y => hx ⟨y.2.2.symm, y.2.1.symm⟩)]; omega
  | mint a d' n =>
    cases h
    have := allowance_congr (s := s) (s' := { s with bal := setBal s.bal a d' (s.bal a d' + n) }) rfl rfl d o p
    simp only [spentBy]; omega
  | burn a d' n =>
    simp only [step] at h
    split at h
    · cases h
    · cases h
      have := allowance_congr (s := s) (s' := { s with bal := setBal s.bal a d' (s.bal a d' - n) }) rfl rfl d o p
      simp only [spentBy]; omega
  | tick t =>
    cases h
    rw [allowance_eq, allowance_eq, if_neg hne, if_neg hne]
    have := live_tick_le s t d o p
    simp only [spentBy]; omega
  | purge a b =>
    simp only [step, purge] at h
    split at h
    · cases h
    · split at h
      · cases h
      · split at h
        · cases h
          have := del_le s a b d o p
          simp only [spentBy]; omega
        · cases h

theorem next_of_some {cfg : Cfg} {s s' : St} {op : Op} (h : step cfg s op = some s') : next cfg s op = s' := by
  unfold next; rw [h]; rfl

theorem next_of_none {cfg : Cfg} {s : St} {op : Op} (h : step cfg s op = none) : next cfg s op = s := by
  unfold next; rw [h]; rfl

theorem run_cons (cfg : Cfg) (s : St) (op : Op) (os : List Op) : run cfg s (op :: os) = run cfg (next cfg s op) os := rfl

/-- The logs that a call adds. -/
def addedLogs (cfg : Cfg) (s : St) (d : Denom) (caller : Addr) : Method → List Event
  | .transfer dst n => [.transfer (cfg.tokenOf d) caller dst n]
  | .transferFrom src dst n =>
    [.transfer (cfg.tokenOf d) src dst n, .approval (cfg.tokenOf d) src caller (newAllowance s d caller src n)]
  | .approve p n => [.approval (cfg.tokenOf d) (cfg.tokenOf d) p n]
  | .increase p n => [.approval (cfg.tokenOf d) (cfg.tokenOf d) p (allowance s d caller p + n)]
  | .decrease p n => [.approval (cfg.tokenOf d) (cfg.tokenOf d) p (allowance s d caller p - n)]

theorem call_log {cfg : Cfg} {s s' : St} {d : Denom} {caller : Addr} {m : Method} (h : call cfg s d caller m = some s') :
    s'.log = s.log ++ addedLogs cfg s d caller m := by
  obtain ⟨_, h⟩ := call_handle h
  cases m with
  | transfer dst n =>
    obtain ⟨s1, rfl, hm⟩ := transfer_moves h
    show s1.log ++ _ = _
    rw [hm.log]; rfl
  | transferFrom src dst n =>
    obtain ⟨s1, rfl, hm, _⟩ := transferFrom_moves h
    show s1.log ++ _ ++ _ = _
    rw [hm.log, List.append_assoc]; rfl
  | approve p n =>
    obtain ⟨s1, rfl, hm⟩ := approve_sets h
    show s1.log ++ _ = _
    rw [hm.log]; rfl
  | increase p n =>
    obtain ⟨s1, rfl, _, _, hm⟩ := increase_sets h
    show s1.log ++ _ = _
    rw [hm.log]; rfl
  | decrease p n =>
    obtain ⟨s1, rfl, _, _, hm⟩ := decrease_sets h
    show s1.log ++ _ = _
    rw [hm.log]; rfl

theorem replay_append (token : Addr) (b : Addr → Nat) (es es' : List Event) :
    replay token b (es ++ es') = replay token (replay token b es) es' := by
  induction es generalizing b with
  | nil => rfl
  | cons e es ih =>
    cases e with
    | transfer t src dst n =>
      simp only [List.cons_append, replay]
      split
      · exact ih _
      · exact ih _
    | approval t o p n => simp only [List.cons_append, replay]; exact ih _

end Erc20Token
