import Verif.Authority.CallsSpec
namespace Authority
variable {W : Type}

theorem live_get {s : St W} {a b k g} (h : live s a b k = some g) :
    KV.get s.grants (a, b, k) = some g ∧ ∀ e, g.expiry = some e → s.now ≤ e := by
  unfold live at h
  cases hg : KV.get s.grants (a, b, k) with
  | none => rw [hg] at h; cases h
  | some g' =>
    rw [hg] at h
    dsimp only at h
    cases he : g'.expiry with
    | none => rw [he] at h; cases h; exact ⟨rfl, fun e h' => by rw [he] at h'; cases h'⟩
    | some e =>
      rw [he] at h
      dsimp only at h
      by_cases hlt : e < s.now
      · rw [if_pos hlt] at h; cases h
      · rw [if_neg hlt] at h; cases h
        exact ⟨rfl, fun e' h' => by rw [he] at h'; cases h'; omega⟩

theorem live_of_get {s : St W} {a b k g} (h : KV.get s.grants (a, b, k) = some g) (he : ∀ e, g.expiry = some e → s.now ≤ e) :
    live s a b k = some g := by
  unfold live
  rw [h]
  dsimp only
  cases hx : g.expiry with
  | none => rfl
  | some e => dsimp only; rw [if_neg (by have := he e hx; omega)]

theorem saveGrant_eq {s s' : St W} {a b k g} (h : saveGrant s a b k g = some s') :
    s' = { s with grants := KV.set s.grants (a, b, k) g } := by
  unfold saveGrant at h
  split at h
  · cases h; rfl
  · split at h
    · cases h
    · cases h; rfl

theorem saveGrant_ok {s : St W} {a b k g} (h : ∀ e, g.expiry = some e → s.now < e) :
    saveGrant s a b k g = some { s with grants := KV.set s.grants (a, b, k) g } := by
  unfold saveGrant
  cases hx : g.expiry with
  | none => rfl
  | some e => dsimp only; rw [if_neg (by have := h e hx; omega)]

theorem deleteGrant_eq {s s' : St W} {a b k} (h : deleteGrant s a b k = some s') :
    s' = { s with grants := KV.del s.grants (a, b, k) } := by
  unfold deleteGrant at h
  split at h
  · cases h
  · cases h; rfl

theorem deleteGrant_ok {s : St W} {a b k g} (h : KV.get s.grants (a, b, k) = some g) :
    deleteGrant s a b k = some { s with grants := KV.del s.grants (a, b, k) } := by
  unfold deleteGrant; rw [h]

theorem runMsg_eq {c : Chain W} {s s' : St W} {m} (h : runMsg c s m = some s') :
    ∃ w, c.exec s.world m = some w ∧ s' = { s with world := w } := by
  unfold runMsg at h
  cases hx : c.exec s.world m with
  | none => rw [hx] at h; cases h
  | some w => rw [hx] at h; cases h; exact ⟨w, rfl, rfl⟩

theorem runMsg_ok {c : Chain W} {s : St W} {m w} (h : c.exec s.world m = some w) : runMsg c s m = some { s with world := w } := by
  unfold runMsg; rw [h]; rfl

/-- A change that touches the entries of one granter, grantee and kind only, and neither the time nor the rest. -/
def OnlyGrant (s s' : St W) (a b : Addr) (k : Kind) : Prop :=
  s'.now = s.now ∧ s'.world = s.world ∧ ∀ a' b' k', (a', b', k') ≠ (a, b, k) → KV.get s'.grants (a', b', k') = KV.get s.grants (a', b', k')

theorem OnlyGrant.refl (s : St W) (a b k) : OnlyGrant s s a b k := ⟨rfl, rfl, fun _ _ _ _ => rfl⟩

theorem saveGrant_only {s s' : St W} {a b k g} (h : saveGrant s a b k g = some s') : OnlyGrant s s' a b k := by
  rw [saveGrant_eq h]
  exact ⟨rfl, rfl, fun a' b' k' hne => by show KV.get (KV.set _ _ _) _ = _; rw [KV.get_set, if_neg hne]⟩

theorem deleteGrant_only {s s' : St W} {a b k} (h : deleteGrant s a b k = some s') : OnlyGrant s s' a b k := by
  rw [deleteGrant_eq h]
  exact ⟨rfl, rfl, fun a' b' k' hne => by show KV.get (KV.del _ _) _ = _; rw [KV.get_del, if_neg hne]⟩

theorem createGrant_save {c : Chain W} {s s' : St W} {a b n k} (h : createGrant c s a b n k = some s') :
    c.active s.world ≠ [] ∧
      saveGrant s a b k ⟨.stake (n.map (Coin.mk c.bond)) (c.active s.world) [], some (s.now + c.lasts)⟩ = some s' := by
  unfold createGrant at h
  by_cases he : c.active s.world = []
  · rw [if_pos he] at h; cases h
  · rw [if_neg he] at h; exact ⟨he, h⟩

theorem grantOrDelete_only {c : Chain W} {s s' : St W} {a b n k} (h : grantOrDelete c s a b n k = some s') : OnlyGrant s s' a b k := by
  unfold grantOrDelete at h
  split at h
  · exact saveGrant_only (createGrant_save h).2
  · exact deleteGrant_only h
  · exact saveGrant_only (createGrant_save h).2

/-- What lowering an allowance does. -/
theorem decrease_cases {s s' : St W} {a b n k} (h : decrease s a b n k = some s') :
    s' = s ∨ ∃ g l allow deny m, KV.get s.grants (a, b, k) = some g ∧ g.auth = .stake (some l) allow deny ∧ n = some m ∧ m ≤ l.amount ∧
      saveGrant s a b k ⟨.stake (some ⟨l.denom, l.amount - m⟩) allow deny, g.expiry⟩ = some s' := by
  unfold decrease at h
  cases hg : live s a b k with
  | none => rw [hg] at h; cases h
  | some g =>
    rw [hg] at h
    dsimp only at h
    have hget := (live_get hg).1
    cases ha : g.auth with
    | generic => rw [ha] at h; cases h
    | stake limit allow deny =>
      rw [ha] at h
      cases limit with
      | none => cases h; exact .inl rfl
      | some l =>
        dsimp only at h
        cases n with
        | none => cases h
        | some m =>
          dsimp only at h
          by_cases hlt : l.amount < m
          · rw [if_pos hlt] at h; cases h
          · rw [if_neg hlt] at h
            exact .inr ⟨g, l, allow, deny, m, hget, ha, rfl, by omega, h⟩

theorem increase_cases {s s' : St W} {a b n k} (h : increase s a b n k = some s') :
    k ≠ .cancel ∧ (s' = s ∨ ∃ g l allow deny m, KV.get s.grants (a, b, k) = some g ∧ g.auth = .stake (some l) allow deny ∧ n = some m ∧
      saveGrant s a b k ⟨.stake (some ⟨l.denom, l.amount + m⟩) allow deny, g.expiry⟩ = some s') := by
  unfold increase at h
  by_cases hk : k = .cancel
  · rw [if_pos hk] at h; cases h
  rw [if_neg hk] at h
  refine ⟨hk, ?_⟩
  cases hg : live s a b k with
  | none => rw [hg] at h; cases h
  | some g =>
    rw [hg] at h
    dsimp only at h
    have hget := (live_get hg).1
    cases ha : g.auth with
    | generic => rw [ha] at h; cases h
    | stake limit allow deny =>
      rw [ha] at h
      cases limit with
      | none => cases h; exact .inl rfl
      | some l =>
        dsimp only at h
        cases n with
        | none => cases h
        | some m => exact .inr ⟨g, l, allow, deny, m, hget, ha, rfl, h⟩

theorem decrease_only {s s' : St W} {a b n k} (h : decrease s a b n k = some s') : OnlyGrant s s' a b k := by
  rcases decrease_cases h with rfl | ⟨g, l, allow, deny, m, _, _, _, _, h'⟩
  · exact .refl _ _ _ _
  · exact saveGrant_only h'

theorem increase_only {s s' : St W} {a b n k} (h : increase s a b n k = some s') : OnlyGrant s s' a b k := by
  rcases (increase_cases h).2 with rfl | ⟨g, l, allow, deny, m, _, _, _, h'⟩
  · exact .refl _ _ _ _
  · exact saveGrant_only h'

/-- A change that touches entries of one granter and grantee with one of some kinds only. -/
def OnlyGrants (s s' : St W) (a b : Addr) (ks : List Kind) : Prop :=
  s'.now = s.now ∧ s'.world = s.world ∧
    ∀ a' b' k', ¬ (a' = a ∧ b' = b ∧ k' ∈ ks) → KV.get s'.grants (a', b', k') = KV.get s.grants (a', b', k')

theorem forKinds_only {f : St W → Kind → Option (St W)} {a b : Addr} (hf : ∀ s k s', f s k = some s' → OnlyGrant s s' a b k) :
    ∀ (ks : List Kind) (s s' : St W), forKinds f ks s = some s' → OnlyGrants s s' a b ks := by
  intro ks
  induction ks with
  | nil => intro s s' h; cases h; exact ⟨rfl, rfl, fun _ _ _ _ => rfl⟩
  | cons k ks ih =>
    intro s s' h
    unfold forKinds at h
    cases hx : f s k with
    | none => rw [hx] at h; cases h
    | some s₁ =>
      rw [hx] at h
      dsimp only at h
      have h1 := hf s k s₁ hx
      have h2 := ih s₁ s' h
      refine ⟨h2.1.trans h1.1, h2.2.1.trans h1.2.1, fun a' b' k' hne => ?_⟩
      rw [h2.2.2 a' b' k' (fun hc => hne ⟨hc.1, hc.2.1, List.mem_cons_of_mem _ hc.2.2⟩)]
      refine h1.2.2 a' b' k' (fun hc => ?_)
      cases hc
      exact hne ⟨rfl, rfl, List.mem_cons_self⟩

/-- Calls that manage grants touch the named grants of the origin only. -/
theorem manage_only {c : Chain W} {s s' : St W} {o b : Addr} {m : Method} {g ks} (hm : manages m = some (g, ks))
    (h : call c s o b m = some s') : ks ≠ [] ∧ OnlyGrants s s' o g ks := by
  cases m <;> try (cases hm; done)
  all_goals
    cases hm
    unfold call at h
    dsimp only at h
    by_cases hk : ks = []
    · rw [if_pos hk] at h; cases h
    · rw [if_neg hk] at h
      refine ⟨hk, forKinds_only ?_ ks s s' h⟩
      intro s k s' hs
      first
        | exact grantOrDelete_only hs
        | exact deleteGrant_only hs
        | exact increase_only hs
        | exact decrease_only hs

theorem covers_iff {allow deny : List Addr} {v : Addr} : covers allow deny v = true ↔ v ∉ deny ∧ (allow ≠ [] → v ∈ allow) := by
  unfold covers
  rw [decide_eq_true_iff]
  constructor
  · rintro ⟨h1, h2⟩; exact ⟨h1, fun hne => h2.resolve_left hne⟩
  · rintro ⟨h1, h2⟩; exact ⟨h1, (Classical.em (allow = [])).imp id h2⟩

/-- What a successful charge of a grant means. -/
theorem accept_cases {s s' : St W} {a b k limit allow deny expiry v coin} (h : accept s a b k limit allow deny expiry v coin = some s') :
    covers allow deny v = true ∧
    ((limit = none ∧ saveGrant s a b k ⟨.stake none allow deny, expiry⟩ = some s') ∨
     (∃ l, limit = some l ∧ l.denom = coin.denom ∧ l.amount = coin.amount ∧ deleteGrant s a b k = some s') ∨
     (∃ l, limit = some l ∧ l.denom = coin.denom ∧ coin.amount < l.amount ∧
        saveGrant s a b k ⟨.stake (some ⟨l.denom, l.amount - coin.amount⟩) allow deny, expiry⟩ = some s')) := by
  unfold accept at h
  by_cases hc : covers allow deny v = false
  · rw [if_pos hc] at h; cases h
  rw [if_neg hc] at h
  refine ⟨by cases hb : covers allow deny v <;> first | rfl | exact absurd hb hc, ?_⟩
  cases limit with
  | none => exact .inl ⟨rfl, h⟩
  | some l =>
    dsimp only at h
    unfold coinSub at h
    by_cases hd : l.denom ≠ coin.denom
    · rw [if_pos hd] at h; cases h
    rw [if_neg hd] at h
    have hd' : l.denom = coin.denom := Classical.not_not.mp hd
    by_cases hl : l.amount < coin.amount
    · rw [if_pos hl] at h; cases h
    rw [if_neg hl] at h
    cases hn : l.amount - coin.amount with
    | zero =>
      rw [hn] at h
      exact .inr (.inl ⟨l, rfl, hd', by omega, h⟩)
    | succ n =>
      rw [hn] at h
      exact .inr (.inr ⟨l, rfl, hd', by omega, by rw [hn]; exact h⟩)

theorem accept_only {s s' : St W} {a b k limit allow deny expiry v coin} (h : accept s a b k limit allow deny expiry v coin = some s') :
    OnlyGrant s s' a b k := by
  rcases (accept_cases h).2 with ⟨_, h'⟩ | ⟨_, _, _, _, h'⟩ | ⟨_, _, _, _, h'⟩
  · exact saveGrant_only h'
  · exact deleteGrant_only h'
  · exact saveGrant_only h'

/-- What a successful staking call by a contract means. -/
theorem stakeWithGrant_cases {c : Chain W} {s s' : St W} {a b k v coin m} (h : stakeWithGrant c s a b k v coin m = some s') :
    ∃ g limit allow deny w, KV.get s.grants (a, b, k) = some g ∧ (∀ e, g.expiry = some e → s.now ≤ e) ∧
      g.auth = .stake limit allow deny ∧ (∀ l, limit = some l → coin.amount ≤ l.amount) ∧ c.exec s.world m = some w ∧
      accept { s with world := w } a b k limit allow deny g.expiry v coin = some s' := by
  unfold stakeWithGrant at h
  cases hg : live s a b k with
  | none => rw [hg] at h; cases h
  | some g =>
    rw [hg] at h
    dsimp only at h
    obtain ⟨hget, hlive⟩ := live_get hg
    cases ha : g.auth with
    | generic => rw [ha] at h; cases h
    | stake limit allow deny =>
      rw [ha] at h
      dsimp only at h
      by_cases hany : limit.any (fun l => decide (l.amount < coin.amount)) = true
      · rw [if_pos hany] at h; cases h
      rw [if_neg hany] at h
      cases hr : runMsg c s m with
      | none => rw [hr] at h; cases h
      | some s₁ =>
        rw [hr] at h
        dsimp only at h
        obtain ⟨w, hw, rfl⟩ := runMsg_eq hr
        refine ⟨g, limit, allow, deny, w, hget, hlive, ha, ?_, hw, h⟩
        intro l hl
        rw [hl] at hany
        rw [Option.any_some, decide_eq_true_iff] at hany
        omega

/-- The two ways a staking call may succeed. -/
theorem stakeCall_cases {c : Chain W} {s s' : St W} {o b k d v coin m} (h : stakeCall c s o b k d v coin m = some s') :
    (b = d ∨ o = d) ∧ ((b = o ∧ runMsg c s m = some s') ∨ (b ≠ o ∧ stakeWithGrant c s o b k v coin m = some s')) := by
  unfold stakeCall at h
  dsimp only at h
  by_cases hx : b ≠ d ∧ o ≠ d
  · rw [if_pos hx] at h; cases h
  rw [if_neg hx] at h
  have hor : b = d ∨ o = d := by
    by_cases hbd : b = d
    · exact .inl hbd
    · exact .inr (Classical.byContradiction fun hod => hx ⟨hbd, hod⟩)
  refine ⟨hor, ?_⟩
  by_cases hbo : b = o
  · rw [if_pos hbo] at h; exact .inl ⟨hbo, h⟩
  · rw [if_neg hbo] at h
    refine .inr ⟨hbo, ?_⟩
    by_cases hbd : b = d
    · rw [if_pos hbd] at h; exact h
    · rw [if_neg hbd] at h
      rcases hor with h1 | h1
      · exact absurd h1 hbd
      · rw [h1]; exact h

/-- The staking methods are staking calls. -/
theorem call_moves {c : Chain W} {s s' : St W} {o b : Addr} {m : Method} {k d v coin} (hm : moves c m = some (k, d, v, coin))
    (h : call c s o b m = some s') : ∃ msg, stakeMsg c m = some msg ∧ msg.actsFor = d ∧ stakeCall c s o b k d v coin msg = some s' := by
  cases m <;> try (cases hm; done)
  · cases hm
    unfold call at h
    dsimp only at h
    split at h
    · cases h
    · exact ⟨_, rfl, rfl, h⟩
  · cases hm
    unfold call at h
    dsimp only at h
    split at h
    · cases h
    · exact ⟨_, rfl, rfl, h⟩
  · cases hm
    exact ⟨_, rfl, rfl, h⟩

theorem partyCall_cases {c : Chain W} {s s' : St W} {o b p m} (h : partyCall c s o b p m = some s') :
    (b = p ∨ o = p) ∧ runMsg c s m = some s' := by
  unfold partyCall at h
  by_cases hx : ¬ (b = p ∧ o ≠ p) ∧ o ≠ p
  · rw [if_pos hx] at h; cases h
  rw [if_neg hx] at h
  refine ⟨?_, h⟩
  by_cases hop : o = p
  · exact .inr hop
  · exact .inl (Classical.byContradiction fun hbp => hx ⟨fun hc => hbp hc.1, hop⟩)

theorem validatorCall_cases {c : Chain W} {s s' : St W} {o b v m} (h : validatorCall c s o b v m = some s') :
    b = o ∧ o = v ∧ runMsg c s m = some s' := by
  unfold validatorCall at h
  by_cases hb : b ≠ o
  · rw [if_pos hb] at h; cases h
  rw [if_neg hb] at h
  by_cases ho : o ≠ v
  · rw [if_pos ho] at h; cases h
  rw [if_neg ho] at h
  exact ⟨Classical.not_not.mp hb, Classical.not_not.mp ho, h⟩

/-- Every admitted call leaves the rest of the chain alone or runs one message, for the caller, for the origin, or `unjail`. -/
theorem call_cases {c : Chain W} {s s' : St W} {o b : Addr} {m : Method} (h : call c s o b m = some s') :
    s'.now = s.now ∧
    ((∃ g ks, manages m = some (g, ks) ∧ s'.world = s.world) ∨
     (∃ msg, c.exec s.world msg = some s'.world ∧ (msg.actsFor = b ∨ msg.actsFor = o ∨ ∃ v, m = .unjail v ∧ msg = .unjail v))) := by
  have party : ∀ {p msg}, partyCall c s o b p msg = some s' → msg.actsFor = p → s'.now = s.now ∧
      ((∃ g ks, manages m = some (g, ks) ∧ s'.world = s.world) ∨
       (∃ msg, c.exec s.world msg = some s'.world ∧ (msg.actsFor = b ∨ msg.actsFor = o ∨ ∃ v, m = .unjail v ∧ msg = .unjail v))) := by
    intro p msg hc hp
    obtain ⟨hor, hr⟩ := partyCall_cases hc
    obtain ⟨w, hw, rfl⟩ := runMsg_eq hr
    exact ⟨rfl, .inr ⟨msg, hw, hor.elim (fun e => .inl (hp.trans e.symm)) (fun e => .inr (.inl (hp.trans e.symm)))⟩⟩
  have plain : ∀ {msg}, runMsg c s msg = some s' → msg.actsFor = o → s'.now = s.now ∧
      ((∃ g ks, manages m = some (g, ks) ∧ s'.world = s.world) ∨
       (∃ msg, c.exec s.world msg = some s'.world ∧ (msg.actsFor = b ∨ msg.actsFor = o ∨ ∃ v, m = .unjail v ∧ msg = .unjail v))) := by
    intro msg hr hp
    obtain ⟨w, hw, rfl⟩ := runMsg_eq hr
    exact ⟨rfl, .inr ⟨msg, hw, .inr (.inl hp)⟩⟩
  have vali : ∀ {v msg}, validatorCall c s o b v msg = some s' → msg.actsFor = v → s'.now = s.now ∧
      ((∃ g ks, manages m = some (g, ks) ∧ s'.world = s.world) ∨
       (∃ msg, c.exec s.world msg = some s'.world ∧ (msg.actsFor = b ∨ msg.actsFor = o ∨ ∃ v, m = .unjail v ∧ msg = .unjail v))) := by
    intro v msg hc hp
    obtain ⟨_, e, hr⟩ := validatorCall_cases hc
    exact plain hr (hp.trans e.symm)
  have stake : ∀ {k d v coin}, moves c m = some (k, d, v, coin) → s'.now = s.now ∧
      ((∃ g ks, manages m = some (g, ks) ∧ s'.world = s.world) ∨
       (∃ msg, c.exec s.world msg = some s'.world ∧ (msg.actsFor = b ∨ msg.actsFor = o ∨ ∃ v, m = .unjail v ∧ msg = .unjail v))) := by
    intro k d v coin hm
    obtain ⟨msg, _, hp, hc⟩ := call_moves hm h
    obtain ⟨hor, hr⟩ := stakeCall_cases hc
    have hact : msg.actsFor = b ∨ msg.actsFor = o := hor.imp (fun e => hp.trans e.symm) (fun e => hp.trans e.symm)
    rcases hr with ⟨_, hr⟩ | ⟨_, hr⟩
    · obtain ⟨w, hw, rfl⟩ := runMsg_eq hr
      exact ⟨rfl, .inr ⟨msg, hw, hact.imp id .inl⟩⟩
    · obtain ⟨g, limit, allow, deny, w, _, _, _, _, hw, ha⟩ := stakeWithGrant_cases hr
      have ho := accept_only ha
      exact ⟨ho.1, .inr ⟨msg, by rw [ho.2.1]; exact hw, hact.imp id .inl⟩⟩
  cases m with
  | approve g n ks =>
    have := (manage_only (m := .approve g n ks) rfl h).2
    exact ⟨this.1, .inl ⟨g, ks, rfl, this.2.1⟩⟩
  | revoke g ks =>
    have := (manage_only (m := .revoke g ks) rfl h).2
    exact ⟨this.1, .inl ⟨g, ks, rfl, this.2.1⟩⟩
  | increaseAllowance g n ks =>
    have := (manage_only (m := .increaseAllowance g n ks) rfl h).2
    exact ⟨this.1, .inl ⟨g, ks, rfl, this.2.1⟩⟩
  | decreaseAllowance g n ks =>
    have := (manage_only (m := .decreaseAllowance g n ks) rfl h).2
    exact ⟨this.1, .inl ⟨g, ks, rfl, this.2.1⟩⟩
  | createValidator v self b => exact vali h rfl
  | editValidator v b => exact vali h rfl
  | delegate d v coin => exact stake rfl
  | undelegate d v coin => exact stake rfl
  | cancelUnbonding d v n ht => exact stake rfl
  | unjail v =>
    obtain ⟨w, hw, rfl⟩ := runMsg_eq h
    exact ⟨rfl, .inr ⟨.unjail v, hw, .inr (.inr ⟨v, rfl, rfl⟩)⟩⟩
  | claimRewards d n => exact party h rfl
  | setWithdrawAddress d t => exact party h rfl
  | withdrawReward d v => exact party h rfl
  | withdrawCommission v => exact party h rfl
  | fundCommunityPool d coin => exact party h rfl
  | vote a p b => exact party h rfl
  | submitProposal dep b => exact plain h rfl
  | sendToChain ch dest coin fee => exact plain h rfl
  | cancelSendToChain ch id => exact plain h rfl
  | requestData b fee => exact plain h rfl
  | setOrchestrator o' id => exact plain h rfl
  | manageBridge b => exact plain h rfl
  | cron b dep => exact plain h rfl
  | storeLogo b => exact plain h rfl
  | createToken d n =>
    unfold call at h
    dsimp only at h
    split at h
    · cases h
    · exact plain h rfl

/-- Calls that neither manage grants nor move stake leave the grants alone. -/
theorem call_keeps_grants {c : Chain W} {s s' : St W} {o b : Addr} {m : Method} (hm : manages m = none) (hv : moves c m = none)
    (h : call c s o b m = some s') : s'.grants = s.grants := by
  have plain : ∀ {msg}, runMsg c s msg = some s' → s'.grants = s.grants := by
    intro msg hr
    obtain ⟨w, _, rfl⟩ := runMsg_eq hr
    rfl
  cases m <;> first
    | (cases hm; done)
    | (cases hv; done)
    | exact plain h
    | exact plain (partyCall_cases h).2
    | exact plain (validatorCall_cases h).2.2
    | (unfold call at h
       dsimp only at h
       split at h
       · cases h
       · exact plain h)

/-- Calls that move stake touch no grant, or the grant of the origin to the caller. -/
theorem stake_grants {c : Chain W} {s s' : St W} {o b : Addr} {k d v coin msg} (h : stakeCall c s o b k d v coin msg = some s') :
    s'.grants = s.grants ∨ (b ≠ o ∧ ∀ a' b' k', (a', b', k') ≠ (o, b, k) → KV.get s'.grants (a', b', k') = KV.get s.grants (a', b', k')) := by
  rcases (stakeCall_cases h).2 with ⟨_, hr⟩ | ⟨hne, hr⟩
  · obtain ⟨w, _, rfl⟩ := runMsg_eq hr; exact .inl rfl
  · obtain ⟨g, limit, allow, deny, w, _, _, _, _, _, ha⟩ := stakeWithGrant_cases hr
    exact .inr ⟨hne, (accept_only ha).2.2⟩

end Authority
