import Verif.Erc20.TokenLemmas2
/-! # Lemmas about sums, logs and success of calls -/
namespace Erc20Token

theorem sum_change {L : List Addr} (hn : L.Nodup) {a : Addr} (ha : a ∈ L) (f : Addr → Nat) (v : Nat) :
    (L.map (fun x => if x = a then v else f x)).sum + f a = (L.map f).sum + v := by
  induction L with
  | nil => cases ha
  | cons b L ih =>
    rw [List.nodup_cons] at hn
    simp only [List.map_cons, List.sum_cons]
    rcases List.mem_cons.1 ha with rfl | hm
    · have : L.map (fun x => if x = a then v else f x) = L.map f := by
        apply List.map_congr_left
        intro x hx
        rw [if_neg]
        intro h; subst h; exact hn.1 hx
      rw [this, if_pos rfl]; omega
    · have hb : b ≠ a := by intro h; subst h; exact hn.1 hm
      have := ih hn.2 hm
      rw [if_neg hb]; omega

theorem sum_move {L : List Addr} (hn : L.Nodup) {src dst : Addr} (hs : src ∈ L) (hd : dst ∈ L) (f : Face) {n : Nat} (hle : n ≤ f.balance src) :
    (L.map (f.move src dst n).balance).sum = (L.map f.balance).sum := by
  by_cases h : src = dst
  · have : (f.move src dst n).balance = f.balance := by
      funext a; simp only [Face.move, if_pos h]
    rw [this]
  · have h1 := sum_change hn hs f.balance (f.balance src - n)
    have h2 := sum_change hn hd (fun x => if x = src then f.balance src - n else f.balance x) (f.balance dst + n)
    have h3 : (fun x => if x = dst then f.balance dst + n else if x = src then f.balance src - n else f.balance x) =
        (f.move src dst n).balance := by
      funext a
      simp only [Face.move, if_neg h]
      by_cases h4 : a = dst
      · subst h4; rw [if_pos rfl, if_neg (fun x => h x.symm), if_pos rfl]
      · rw [if_neg h4]
        by_cases h5 : a = src
        · subst h5; rw [if_pos rfl, if_pos rfl]
        · rw [if_neg h5, if_neg h5, if_neg h4]
    rw [h3] at h2
    rw [if_neg (fun x => h x.symm)] at h2
    omega

/-- What the event does to the balances of one coin: nothing, or a move. -/
theorem step_balance {cfg : Cfg} {s s' : St} {op : Op} (h : step cfg s op = some s') (d : Denom)
    (hm : ∀ a n, op ≠ .mint a d n) (hb : ∀ a n, op ≠ .burn a d n) :
    balanceOf s' d = balanceOf s d ∨
    ∃ src dst n p, 0 < n ∧ n ≤ balanceOf s d src ∧ balanceOf s' d = ((face s d).move src dst n).balance ∧ actor op = some p ∧
      (p = src ∨ n ≤ allowance s d src p ∨ ∃ e, live s src p = some ⟨.generic, e⟩) := by
  have key : ∀ (d' : Denom) {s1 : St} {c src dst n}, Moves s s1 c src dst d' n →
      d' ≠ d ∧ balanceOf s1 d = balanceOf s d ∨ d' = d ∧ balanceOf s1 d = ((face s d).move src dst n).balance := by
    intro d' s1 c src dst n hy
    by_cases hd : d' = d
    · subst hd; exact .inr ⟨rfl, funext hy.balance⟩
    · exact .inl ⟨hd, funext fun a => hy.otherBal a d (fun x => hd x.symm)⟩
  cases op with
  | call d' c m =>
    obtain ⟨_, h⟩ := call_handle h
    cases m with
    | transfer dst n =>
      obtain ⟨s1, rfl, hx⟩ := transfer_moves h
      rcases key d' hx with ⟨_, hk⟩ | ⟨rfl, hk⟩
      · exact .inl hk
      · exact .inr ⟨c, dst, n, c, hx.pos, hx.enough, hk, rfl, .inl rfl⟩
    | transferFrom src dst n =>
      obtain ⟨s1, rfl, hx, hs⟩ := transferFrom_moves h
      rcases key d' hx with ⟨_, hk⟩ | ⟨rfl, hk⟩
      · exact .inl hk
      · refine .inr ⟨src, dst, n, c, hx.pos, hx.enough, hk, rfl, ?_⟩
        by_cases hc : c = src
        · exact .inl hc
        · exact .inr (.inl (hx.permitted hs hc))
    | approve p n => obtain ⟨s1, rfl, hx⟩ := approve_sets h; exact .inl (funext fun a => by show s1.bal a d = _; rw [hx.bal]; rfl)
    | increase p n => obtain ⟨s1, rfl, _, _, hx⟩ := increase_sets h; exact .inl (funext fun a => by show s1.bal a d = _; rw [hx.bal]; rfl)
    | decrease p n => obtain ⟨s1, rfl, _, _, hx⟩ := decrease_sets h; exact .inl (funext fun a => by show s1.bal a d = _; rw [hx.bal]; rfl)
  | send src dst d' n =>
    have hx := bankSend_moves h
    rcases key d' hx with ⟨_, hk⟩ | ⟨rfl, hk⟩
    · exact .inl hk
    · exact .inr ⟨src, dst, n, src, hx.pos, hx.enough, hk, rfl, .inl rfl⟩
  | grant a b g =>
    simp only [step] at h
    split at h
    · cases h
    · obtain ⟨_, rfl⟩ := saveGrant_eq h; exact .inl rfl
  | revoke a b =>
    simp only [step] at h
    split at h
    · cases h
    · cases h; exact .inl rfl
  | exec a b dst d' n =>
    simp only [step] at h
    split at h
    · cases h
    · split at h
      · rename_i _ hab
        subst hab
        have hx := bankSend_moves h
        rcases key d' hx with ⟨_, hk⟩ | ⟨rfl, hk⟩
        · exact .inl hk
        · exact .inr ⟨a, dst, n, a, hx.pos, hx.enough, hk, rfl, .inl rfl⟩
      · rename_i _ hab
        have hba : b ≠ a := fun x => hab x.symm
        have hx := dispatch_moves hba h
        rcases key d' hx with ⟨_, hk⟩ | ⟨rfl, hk⟩
        · exact .inl hk
        · refine .inr ⟨a, dst, n, b, hx.pos, hx.enough, hk, rfl, .inr ?_⟩
          obtain ⟨⟨au, e⟩, hg⟩ := dispatch_live h
          cases au with
          | generic => exact .inr ⟨e, hg⟩
          | send L A => exact .inl (hx.permitted (fun _ => ⟨L, A, e, hg⟩) hba)
  | mint a d' n =>
    cases h
    have : d ≠ d' := by intro x; subst x; exact hm a n rfl
    exact .inl (funext fun x => by simp only [balanceOf, setBal]; rw [if_neg (fun y => this y.2)])
  | burn a d' n =>
    simp only [step] at h
    split at h
    · cases h
    · cases h
      have : d ≠ d' := by intro x; subst x; exact hb a n rfl
      exact .inl (funext fun x => by simp only [balanceOf, setBal]; rw [if_neg (fun y => this y.2)])
  | tick t => cases h; exact .inl rfl
  | purge a b =>
    simp only [step, purge] at h
    split at h
    · cases h
    · split at h
      · cases h
      · split at h
        · cases h; exact .inl rfl
        · cases h

theorem live_tick_eq {s : St} {t : Nat} {o p : Addr} {g : Grant} (h : live s o p = some g) :
    live { s with now := s.now + t } o p = some g ∨
      live { s with now := s.now + t } o p = none ∧ ∃ e, g.expiry = some e ∧ e ≤ s.now + t := by
  have hs := live_stored h
  unfold live
  dsimp only
  rw [hs]
  dsimp only
  cases he : g.expiry with
  | none => exact .inl rfl
  | some e =>
    dsimp only
    by_cases hx : e < s.now + t
    · rw [if_pos hx]; exact .inr ⟨rfl, e, rfl, by omega⟩
    · rw [if_neg hx]; exact .inl rfl

/-- Why an allowance changes. -/
theorem step_allowance {cfg : Cfg} {s s' : St} {op : Op} (h : step cfg s op = some s') (d : Denom) {o p : Addr} (hne : o ≠ p)
    (hch : allowance s' d o p ≠ allowance s d o p) :
    actor op = some o ∨
    (actor op = some p ∧ 0 < spentBy d o p op ∧ allowance s' d o p + spentBy d o p op = allowance s d o p) ∨
    (allowance s' d o p = 0 ∧ ∃ g e, KV.get s.grants (o, p) = some g ∧ g.expiry = some e ∧ e ≤ s'.now) := by
  cases op with
  | call d' c m =>
    obtain ⟨hp, hf, ho⟩ := call_face h
    by_cases hd : d' = d
    · subst hd
      have ha := face_allowance hf o p
      have hfa : ∀ x y, (face s d').allowance x y = allowance s d' x y := fun _ _ => rfl
      cases m with
      | transfer dst n => exact absurd ha hch
      | transferFrom src dst n =>
        obtain ⟨_, hp⟩ := hp
        simp only [Face.after] at ha
        by_cases hc : c = src
        · rw [if_pos hc] at ha; exact absurd ha hch
        · have hp := hp.resolve_left hc
          rw [if_neg hc] at ha
          simp only [Face.allow, Face.move, hfa] at ha hp
          by_cases hx : o = src ∧ p = c
          · obtain ⟨rfl, rfl⟩ := hx
            rw [if_pos ⟨rfl, rfl⟩] at ha
            have : spentBy d' o p (.call d' p (.transferFrom o dst n)) = n := if_pos ⟨rfl, rfl, rfl⟩
            rw [this]
            exact .inr (.inl ⟨rfl, by omega, by omega⟩)
          · rw [if_neg hx] at ha; exact absurd ha hch
      | approve q n | increase q n | decrease q n =>
        simp only [Face.after, Face.allow, hfa] at ha
        by_cases hx : o = c ∧ p = q
        · rw [hx.1]; exact .inl rfl
        · rw [if_neg hx] at ha; exact absurd ha hch
    · exact absurd (face_allowance (ho d (fun x => hd x.symm)) o p) hch
  | send src dst d' n =>
    have hs := bankSend_sends h
    exact absurd (allowance_congr hs.grants hs.now d o p) hch
  | grant a b g =>
    simp only [step] at h
    split at h
    · cases h
    · obtain ⟨he, rfl⟩ := saveGrant_eq h
      by_cases hx : o = a ∧ p = b
      · rw [hx.1]; exact .inl rfl
      · rw [allowance_eq, live_set s a b g he, if_neg hx, ← allowance_eq] at hch
        exact absurd rfl hch
  | revoke a b =>
    simp only [step] at h
    split at h
    · cases h
    · cases h
      by_cases hx : o = a ∧ p = b
      · rw [hx.1]; exact .inl rfl
      · rw [allowance_eq, live_del, if_neg hx, ← allowance_eq] at hch
        exact absurd rfl hch
  | exec a b dst d' n =>
    simp only [step] at h
    split at h
    · cases h
    · split at h
      · have hs := bankSend_sends h
        exact absurd (allowance_congr hs.grants hs.now d o p) hch
      · rename_i _ hab
        have hba : b ≠ a := fun x => hab x.symm
        have hm := dispatch_moves hba h
        by_cases hx : o = a ∧ p = b
        · obtain ⟨rfl, rfl⟩ := hx
          obtain ⟨⟨au, e⟩, hg⟩ := dispatch_live h
          cases au with
          | generic =>
            have h' := h
            unfold dispatch at h'
            rw [hg] at h'
            have hs := bankSend_sends h'
            exact absurd (allowance_congr hs.grants hs.now d o p) hch
          | send L A =>
            have hs : p ≠ o → ∃ L A e, live s o p = some ⟨.send L A, e⟩ := fun _ => ⟨L, A, e, hg⟩
            have hal := hm.allowance hs d o p
            by_cases hd : d' = d
            · subst hd
              rw [if_pos ⟨hba, rfl, rfl, rfl⟩] at hal
              have h1 := hm.permitted hs hba
              have h2 := hm.pos
              have : spentBy d' o p (.exec o p dst d' n) = n := if_pos ⟨rfl, rfl, rfl⟩
              rw [this]
              exact .inr (.inl ⟨rfl, h2, by omega⟩)
            · rw [if_neg (fun x => hd x.2.1.symm)] at hal; exact absurd hal hch
        · rw [allowance_eq, hm.other o p hx, ← allowance_eq] at hch
          exact absurd rfl hch
  | mint a d' n => cases h; exact absurd (allowance_congr (s := s) rfl rfl d o p) hch
  | burn a d' n =>
    simp only [step] at h
    split at h
    · cases h
    · cases h; exact absurd (allowance_congr (s := s) rfl rfl d o p) hch
  | tick t =>
    cases h
    rw [allowance_eq, allowance_eq, if_neg hne, if_neg hne] at hch
    cases hl : live s o p with
    | none =>
      have := live_tick_le s t d o p
      rw [hl] at hch this
      have h0 : grantAmount d (none : Option Grant) = 0 := rfl
      omega
    | some g =>
      rcases live_tick_eq (t := t) hl with h1 | ⟨h1, e, he, hle⟩
      · rw [h1, hl] at hch; exact absurd rfl hch
      · refine .inr (.inr ⟨?_, g, e, live_stored hl, he, hle⟩)
        rw [allowance_eq, if_neg hne, h1]; rfl
  | purge a b =>
    simp only [step, purge] at h
    split at h
    · cases h
    · rename_i g hg
      split at h
      · cases h
      · rename_i e he
        split at h
        · rename_i hle
          cases h
          by_cases hx : o = a ∧ p = b
          · obtain ⟨rfl, rfl⟩ := hx
            refine .inr (.inr ⟨?_, g, e, hg, he, hle⟩)
            rw [allowance_eq, if_neg hne, live_del, if_pos ⟨rfl, rfl⟩]; rfl
          · rw [allowance_eq, live_del, if_neg hx, ← allowance_eq] at hch
            exact absurd rfl hch
        · cases h

theorem step_log {cfg : Cfg} {s s' : St} {op : Op} (h : step cfg s op = some s') :
    s'.log = s.log ++ (match op with | .call d c m => addedLogs cfg s d c m | _ => []) := by
  cases op with
  | call d c m => exact call_log h
  | send src dst d n => rw [(bankSend_sends h).log, List.append_nil]
  | grant a b g =>
    simp only [step] at h
    split at h
    · cases h
    · obtain ⟨_, rfl⟩ := saveGrant_eq h; exact (List.append_nil _).symm
  | revoke a b =>
    simp only [step] at h
    split at h
    · cases h
    · cases h; exact (List.append_nil _).symm
  | exec a b dst d' n =>
    simp only [step] at h
    split at h
    · cases h
    · split at h
      · rw [(bankSend_sends h).log, List.append_nil]
      · rename_i _ hab
        rw [(dispatch_moves (fun x => hab x.symm) h).log, List.append_nil]
  | mint a d' n => cases h; exact (List.append_nil _).symm
  | burn a d' n =>
    simp only [step] at h
    split at h
    · cases h
    · cases h; exact (List.append_nil _).symm
  | tick t => cases h; exact (List.append_nil _).symm
  | purge a b =>
    simp only [step, purge] at h
    split at h
    · cases h
    · split at h
      · cases h
      · split at h
        · cases h; exact (List.append_nil _).symm
        · cases h

/-- The logs of one event tell what it did to the balances. -/
theorem step_replay {cfg : Cfg} (hinj : ∀ d d', cfg.tokenOf d = cfg.tokenOf d' → d = d') {s s' : St} {op : Op} (h : step cfg s op = some s')
    (ho : tokenOnly op = true) (d : Denom) :
    ∃ es, s'.log = s.log ++ es ∧ replay (cfg.tokenOf d) (balanceOf s d) es = balanceOf s' d := by
  refine ⟨_, step_log h, ?_⟩
  cases op with
  | call d' c m =>
    obtain ⟨_, hf, hot⟩ := call_face h
    by_cases hd : d = d'
    · subst hd
      have hb : balanceOf s' d = ((face s d).after c m).balance := funext (face_balance hf)
      rw [hb]
      cases m with
      | transfer dst n =>
        simp only [addedLogs, replay, if_true]; rfl
      | transferFrom src dst n =>
        simp only [addedLogs, replay, if_true, Face.after]
        by_cases hc : c = src
        · rw [if_pos hc]; rfl
        · rw [if_neg hc]; rfl
      | approve p n => rfl
      | increase p n => rfl
      | decrease p n => rfl
    · have hb : balanceOf s' d = balanceOf s d := funext (face_balance (hot d hd))
      rw [hb]
      have ht : ¬ cfg.tokenOf d' = cfg.tokenOf d := fun x => hd (hinj _ _ x).symm
      cases m with
      | transfer dst n => simp only [addedLogs, replay, if_neg ht]
      | transferFrom src dst n => simp only [addedLogs, replay, if_neg ht]
      | approve p n => rfl
      | increase p n => rfl
      | decrease p n => rfl
  | grant a b g =>
    rcases step_balance h d (fun _ _ x => nomatch x) (fun _ _ x => nomatch x) with hk | ⟨_, _, _, _, _⟩
    · exact hk.symm
    · simp only [step] at h
      split at h
      · cases h
      · obtain ⟨_, rfl⟩ := saveGrant_eq h; rfl
  | revoke a b =>
    simp only [step] at h
    split at h
    · cases h
    · cases h; rfl
  | tick t => cases h; rfl
  | purge a b =>
    simp only [step, purge] at h
    split at h
    · cases h
    · split at h
      · cases h
      · split at h
        · cases h; rfl
        · cases h
  | send | exec | mint | burn => cases ho

theorem bankSend_ok {cfg : Cfg} {s : St} {src dst : Addr} {d : Denom} {n : Nat} (hn : 0 < n) (he : cfg.enabled d = true)
    (hb : cfg.blocked dst = false) (hl : cfg.locked src d = 0) (hle : n ≤ s.bal src d) : (bankSend cfg s src dst d n).isSome := by
  unfold bankSend
  rw [if_neg (by omega), if_neg (by rw [he]; decide), if_neg (by rw [hb]; decide), if_neg (by omega)]
  rfl

theorem saveGrant_ok {s : St} {o p : Addr} {g : Grant} (hl : ∀ e, g.expiry = some e → ¬ e < s.now) (hx : g.expiry ≠ some s.now) :
    (saveGrant s o p g).isSome := by
  unfold saveGrant
  cases he : g.expiry with
  | none => rfl
  | some e =>
    dsimp only
    have h1 := hl e he
    have h2 : e ≠ s.now := by intro h; subst h; exact hx he
    rw [if_neg (by omega)]; rfl

theorem isSome_map {α β : Type} (o : Option α) (f : α → β) : (o.map f).isSome = o.isSome := by cases o <;> rfl

theorem createAuth_ok (s : St) (d : Denom) (o p : Addr) (n : Nat) : (createAuth s d o p n).isSome := by
  unfold createAuth saveGrant
  dsimp only
  rw [if_neg (by unfold year; omega)]; rfl

theorem removeLimit_ok {s : St} {d : Denom} {o p : Addr} {L : List (Denom × Nat)} {A : List Addr} {e : Option Nat}
    (hl : ∀ x, e = some x → ¬ x < s.now) (hx : e ≠ some s.now) (hp : 0 < amountOf L d) : (removeLimit s d o p L A e).isSome := by
  unfold removeLimit
  cases hg : KV.get L d with
  | none => unfold amountOf at hp; rw [hg] at hp; exact absurd hp (Nat.lt_irrefl 0)
  | some x =>
    dsimp only
    split
    · rfl
    · exact saveGrant_ok hl hx

end Erc20Token
