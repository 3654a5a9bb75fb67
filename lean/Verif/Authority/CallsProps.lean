import Verif.Authority.CallsLemmas2
import Verif.Authority.CallsDemo
/-!
# Properties of calls made in somebody's name
-/
namespace Authority
variable {W : Type}

/-- Whatever the messages do: an admitted call touches the caller or the account that signed the transaction. The one exception is
`unjail`, see `anyone_unjails_any_validator`. -/
theorem only_caller_and_signer_are_touched {c : Chain W} (O : Ownership c) {s s' : St W} {o b a : Addr} {m : Method}
    (h : call c s o b m = some s') (ht : O.touched s.world s'.world a) : a = b ∨ a = o ∨ m = .unjail a := by
  rcases (call_cases h).2 with ⟨_, _, _, hw⟩ | ⟨msg, hx, hw⟩
  · rw [hw] at ht; exact absurd ht (O.still _ _)
  · have := O.byMessage _ _ _ _ hx ht
    rcases hw with e | e | ⟨v, rfl, rfl⟩
    · exact .inl (this.trans e)
    · exact .inr (.inl (this.trans e))
    · rw [this]; exact .inr (.inr rfl)

example : (call toy toy0 1 9 (.fundCommunityPool 1 ⟨1, 100⟩)).map (fun s => s.world.coins) = some [(1, 400), (9, 30)] := by decide +kernel

/-- A call changes a grant only if the account that signed the transaction gave it, and then either the method names the grantee and the kind,
or the grant is the caller's and was used. -/
theorem grants_change_only_for_the_signer {c : Chain W} {s s' : St W} {o b a g : Addr} {k : Kind} {m : Method}
    (h : call c s o b m = some s') (hne : KV.get s'.grants (a, g, k) ≠ KV.get s.grants (a, g, k)) :
    a = o ∧ ((∃ ks, manages m = some (g, ks) ∧ k ∈ ks) ∨ (g = b ∧ b ≠ o ∧ ∃ d v coin, moves c m = some (k, d, v, coin))) := by
  cases hm : manages m with
  | some q =>
    obtain ⟨g', ks⟩ := q
    have := (manage_only hm h).2.2.2
    by_cases hx : a = o ∧ g = g' ∧ k ∈ ks
    · obtain ⟨rfl, rfl, hk⟩ := hx; exact ⟨rfl, .inl ⟨ks, rfl, hk⟩⟩
    · exact absurd (this a g k hx) hne
  | none =>
    cases hv : moves c m with
    | none => exact absurd (by rw [call_keeps_grants hm hv h]) hne
    | some q =>
      obtain ⟨k', d, v, coin⟩ := q
      obtain ⟨msg, _, _, hs⟩ := call_moves hv h
      rcases stake_grants hs with he | ⟨hbo, he⟩
      · exact absurd (by rw [he]) hne
      · by_cases hx : (a, g, k) = (o, b, k')
        · cases hx; exact ⟨rfl, .inr ⟨rfl, hbo, d, v, coin, rfl⟩⟩
        · exact absurd (he a g k hx) hne

example : (call toy toy0 1 9 (.approve 9 (some 60) [.delegate])).map (fun s => KV.get s.grants (1, 9, .delegate))
    = some (some ⟨.stake (some ⟨1, 60⟩) [70] [], some 110⟩) := by decide +kernel

/-- The methods that manage grants do to each kind named what they say. -/
theorem grants_become_what_the_method_says {c : Chain W} {s s' : St W} {o b g : Addr} {k : Kind} {ks : List Kind} {m : Method}
    (hm : manages m = some (g, ks)) (hk : ks.count k = 1) (h : call c s o b m = some s') :
    Managed c s m (KV.get s.grants (o, g, k)) (KV.get s'.grants (o, g, k)) := by
  have hks : ks ≠ [] := (manage_only hm h).1
  cases m <;> try (cases hm; done)
  case approve g' n ks' =>
    cases hm
    unfold call at h
    dsimp only at h
    rw [if_neg hks] at h
    refine forKinds_once (R := fun before after => Managed c s (.approve g n ks) before after) (now := s.now) (w := s.world)
      (fun _ _ _ hf => grantOrDelete_only hf) ?_ ks s s' rfl rfl hk h
    intro s₁ s₂ hn hw hf
    show _ = _
    unfold grantOrDelete at hf
    cases n with
    | none =>
      rw [get_save (createGrant_save hf).2, hn, hw]
      rfl
    | some n =>
      cases n with
      | zero => rw [get_delete hf]; rfl
      | succ n =>
        rw [get_save (createGrant_save hf).2, hn, hw, if_neg (by intro hc; cases hc)]
  case revoke g' ks' =>
    cases hm
    unfold call at h
    dsimp only at h
    rw [if_neg hks] at h
    exact forKinds_once (R := fun before after => Managed c s (.revoke g ks) before after) (now := s.now) (w := s.world)
      (fun _ _ _ hf => deleteGrant_only hf) (fun _ _ _ _ hf => get_delete hf) ks s s' rfl rfl hk h
  case increaseAllowance g' n ks' =>
    cases hm
    unfold call at h
    dsimp only at h
    rw [if_neg hks] at h
    refine forKinds_once (R := fun before after => Managed c s (.increaseAllowance g n ks) before after) (now := s.now) (w := s.world)
      (fun _ _ _ hf => increase_only hf) ?_ ks s s' rfl rfl hk h
    intro s₁ s₂ _ _ hf
    exact increase_get hf
  case decreaseAllowance g' n ks' =>
    cases hm
    unfold call at h
    dsimp only at h
    rw [if_neg hks] at h
    refine forKinds_once (R := fun before after => Managed c s (.decreaseAllowance g n ks) before after) (now := s.now) (w := s.world)
      (fun _ _ _ hf => decrease_only hf) ?_ ks s s' rfl rfl hk h
    intro s₁ s₂ _ _ hf
    exact decrease_get hf

example : (run toy toy0 [.call 1 1 (.approve 9 (some 60) [.delegate, .undelegate]), .call 1 1 (.increaseAllowance 9 (some 5) [.delegate]),
      .call 1 1 (.decreaseAllowance 9 (some 20) [.delegate, .undelegate]), .call 1 1 (.revoke 9 [.undelegate])]).grants
    = [((1, 9, .delegate), ⟨.stake (some ⟨1, 45⟩) [70] [], some 110⟩)] := by decide +kernel

/-- Whoever has no part in a history keeps what they own and the grants they gave: no call made in transactions of others, through
whichever contracts, and no grant of others changes that. -/
theorem bystanders_are_left_alone {c : Chain W} (O : Ownership c) (a : Addr) :
    ∀ (ops : List (Op W)) (s : St W), (∀ op ∈ ops, Foreign a op) →
      ¬ O.touched s.world (run c s ops).world a ∧ ∀ g k, KV.get (run c s ops).grants (a, g, k) = KV.get s.grants (a, g, k) := by
  intro ops
  induction ops with
  | nil => intro s _; exact ⟨O.still _ _, fun _ _ => rfl⟩
  | cons op ops ih =>
    intro s hf
    have hop := hf op List.mem_cons_self
    have h2 := ih (next c s op) (fun op' hm => hf op' (List.mem_cons_of_mem _ hm))
    have h1 : ¬ O.touched s.world (next c s op).world a ∧ ∀ g k, KV.get (next c s op).grants (a, g, k) = KV.get s.grants (a, g, k) := by
      unfold next
      cases hx : step c s op with
      | none => exact ⟨O.still _ _, fun _ _ => rfl⟩
      | some s' =>
        show ¬ O.touched s.world s'.world a ∧ ∀ g k, KV.get s'.grants (a, g, k) = KV.get s.grants (a, g, k)
        cases op with
        | call o b m =>
          obtain ⟨ho, hb, hu⟩ := hop
          constructor
          · intro ht
            rcases only_caller_and_signer_are_touched O (m := m) hx ht with e | e | e
            · exact hb e.symm
            · exact ho e.symm
            · exact hu e
          · intro g k
            exact Classical.byContradiction fun hne => ho (grants_change_only_for_the_signer (m := m) hx hne).1.symm
        | grant a' b' k' g' =>
          have := saveGrant_only (s := s) hx
          exact ⟨by rw [this.2.1]; exact O.still _ _, fun g k => this.2.2 a g k (fun hc => hop (by cases hc; rfl))⟩
        | revoke a' b' k' =>
          have := deleteGrant_only (s := s) hx
          exact ⟨by rw [this.2.1]; exact O.still _ _, fun g k => this.2.2 a g k (fun hc => hop (by cases hc; rfl))⟩
        | other w => exact hop.elim
        | tick dt => cases hx; exact ⟨O.still _ _, fun _ _ => rfl⟩
    refine ⟨fun ht => ?_, fun g k => (h2.2 g k).trans (h1.2 g k)⟩
    exact (O.either _ _ _ _ ht).elim h1.1 h2.1

/-- A history without account 9 that does something. -/
def without9 : List (Op Toy) :=
  [.call 1 8 (.approve 8 (some 60) [.delegate, .undelegate]), .call 1 8 (.delegate 1 70 ⟨1, 25⟩), .tick 5, .call 1 1 (.setWithdrawAddress 1 4)]

example : (∀ op ∈ without9, Foreign 9 op) ∧ (run toy toy0 without9).world = ⟨[(1, 475), (9, 30)], [(1, 65)], [71], [(1, 4)]⟩
    ∧ toyOwnership.touched toy0.world (run toy toy0 without9).world 1 := by
  refine ⟨?_, by decide +kernel, by show Toy.owns _ _ ≠ _; decide +kernel⟩
  intro op hm
  simp only [without9, List.mem_cons, List.not_mem_nil, or_false] at hm
  rcases hm with rfl | rfl | rfl | rfl
  · exact ⟨by decide, by decide, by decide⟩
  · exact ⟨by decide, by decide, by decide⟩
  · trivial
  · exact ⟨by decide, by decide, by decide⟩

/-- A call moves the stake or the coins of an account other than the caller only if that account signed the transaction and the caller
holds a grant of it that covers kind, validator, coin and amount; and the grant is charged. -/
theorem staking_for_another_needs_a_grant {c : Chain W} {s s' : St W} {o b d v : Addr} {k : Kind} {coin : Coin} {m : Method}
    (hm : moves c m = some (k, d, v, coin)) (hbd : b ≠ d) (h : call c s o b m = some s') :
    o = d ∧ ∃ g, KV.get s.grants (d, b, k) = some g ∧ Permits s.now g v coin ∧ Used g coin (KV.get s'.grants (d, b, k)) := by
  obtain ⟨msg, _, _, hs⟩ := call_moves hm h
  obtain ⟨hor, hc⟩ := stakeCall_cases hs
  have hod : o = d := hor.resolve_left hbd
  subst hod
  refine ⟨rfl, ?_⟩
  rcases hc with ⟨e, _⟩ | ⟨_, hr⟩
  · exact absurd e hbd
  · obtain ⟨g, limit, allow, deny, w, hg, hlive, hau, hamt, _, ha⟩ := stakeWithGrant_cases hr
    obtain ⟨au, ex⟩ := g
    cases hau
    obtain ⟨hcov, hac⟩ := accept_cases ha
    obtain ⟨hd1, hd2⟩ := covers_iff.mp hcov
    refine ⟨_, hg, ⟨hlive, limit, allow, deny, rfl, hd1, hd2, ?_⟩, ?_⟩
    · intro l hl
      rcases hac with ⟨hn, _⟩ | ⟨l', hl', hden, _, _⟩ | ⟨l', hl', hden, _, _⟩
      · rw [hl] at hn; cases hn
      · rw [hl] at hl'; cases hl'; exact ⟨hden, hamt l hl⟩
      · rw [hl] at hl'; cases hl'; exact ⟨hden, hamt l hl⟩
    · unfold Used
      rcases hac with ⟨rfl, hsv⟩ | ⟨l', rfl, _, heq, hdl⟩ | ⟨l', rfl, _, hlt, hsv⟩
      · exact get_save hsv
      · exact ⟨fun _ => get_delete hdl, fun hl => by omega⟩
      · exact ⟨fun hl => by omega, fun _ => get_save hsv⟩

/-- Account 1 allowed contract 9 to delegate 60. -/
def toy1 : St Toy := run toy toy0 [.call 1 1 (.approve 9 (some 60) [.delegate])]

example : (call toy toy1 1 9 (.delegate 1 70 ⟨1, 25⟩)).map (fun s => (KV.get s.grants (1, 9, .delegate), s.world.coins))
      = some (some ⟨.stake (some ⟨1, 35⟩) [70] [], some 110⟩, [(1, 475), (9, 30)])
    ∧ (call toy toy1 1 9 (.delegate 1 70 ⟨1, 60⟩)).map (fun s => KV.get s.grants (1, 9, .delegate)) = some none := by decide +kernel

example : (call toy toy1 1 9 (.delegate 1 70 ⟨1, 61⟩)).isNone ∧ (call toy toy1 1 9 (.delegate 1 71 ⟨1, 5⟩)).isNone
    ∧ (call toy toy1 1 9 (.delegate 1 70 ⟨2, 5⟩)).isNone ∧ (call toy toy1 1 9 (.undelegate 1 70 ⟨1, 5⟩)).isNone
    ∧ (call toy toy1 2 9 (.delegate 1 70 ⟨1, 5⟩)).isNone ∧ (call toy toy1 1 8 (.delegate 1 70 ⟨1, 5⟩)).isNone
    ∧ (call toy { toy1 with now := 111 } 1 9 (.delegate 1 70 ⟨1, 5⟩)).isNone := by decide +kernel

/-- With such a grant, unexpired, the call does what the message does. -/
theorem granted_calls_succeed {c : Chain W} {s : St W} {o b v : Addr} {k : Kind} {coin : Coin} {m : Method} {msg : Msg} {g : Grant} {w : W}
    (hm : moves c m = some (k, o, v, coin)) (hlisted : k ≠ .cancel → c.listed s.world coin.denom = true) (hbo : b ≠ o)
    (hg : KV.get s.grants (o, b, k) = some g) (hp : Permits s.now g v coin) (hexp : ∀ e, g.expiry = some e → s.now < e)
    (hmsg : stakeMsg c m = some msg) (hx : c.exec s.world msg = some w) :
    ∃ s', call c s o b m = some s' ∧ s'.world = w ∧ s'.now = s.now := by
  obtain ⟨au, ex⟩ := g
  obtain ⟨hlive, limit, allow, deny, hau, hd1, hd2, hlim⟩ := hp
  cases hau
  have hacc : ∃ s', accept { s with world := w } o b k limit allow deny ex v coin = some s' ∧ s'.world = w ∧ s'.now = s.now := by
    unfold accept
    rw [if_neg (by rw [covers_iff.mpr ⟨hd1, hd2⟩]; decide)]
    cases limit with
    | none => exact ⟨_, saveGrant_ok hexp, rfl, rfl⟩
    | some l =>
      obtain ⟨he, hle⟩ := hlim l rfl
      dsimp only
      unfold coinSub
      rw [if_neg (fun hne => hne he), if_neg (by omega)]
      cases hn : l.amount - coin.amount with
      | zero => exact ⟨_, deleteGrant_ok hg, rfl, rfl⟩
      | succ n => exact ⟨_, saveGrant_ok hexp, rfl, rfl⟩
  obtain ⟨s', hs', hw', hn'⟩ := hacc
  have hstake : stakeCall c s o b k o v coin msg = some s' := by
    unfold stakeCall
    dsimp only
    rw [if_neg (fun hc => hc.2 rfl), if_neg hbo, if_neg hbo]
    unfold stakeWithGrant
    rw [live_of_get hg hlive]
    dsimp only
    rw [if_neg, runMsg_ok hx]
    · exact hs'
    · cases limit with
      | none => exact fun h => nomatch h
      | some l => rw [Option.any_some, decide_eq_true_iff]; have := (hlim l rfl).2; omega
  refine ⟨s', ?_, hw', hn'⟩
  cases m <;> try (cases hm; done)
  · cases hm; cases hmsg
    unfold call; dsimp only
    rw [if_neg (by rw [hlisted (by decide)]; decide)]
    exact hstake
  · cases hm; cases hmsg
    unfold call; dsimp only
    rw [if_neg (by rw [hlisted (by decide)]; decide)]
    exact hstake
  · cases hm; cases hmsg; exact hstake

example : KV.get toy1.grants (1, 9, .delegate) = some ⟨.stake (some ⟨1, 60⟩) [70] [], some 110⟩ := by decide +kernel

/-- The signer staking for themselves needs no grant: the call is the message. -/
theorem own_calls_are_the_message {c : Chain W} {s : St W} {o v : Addr} {k : Kind} {coin : Coin} {m : Method} {msg : Msg}
    (hm : moves c m = some (k, o, v, coin)) (hlisted : k ≠ .cancel → c.listed s.world coin.denom = true) (hmsg : stakeMsg c m = some msg) :
    call c s o o m = (c.exec s.world msg).map (fun w => { s with world := w }) := by
  have hstake : stakeCall c s o o k o v coin msg = runMsg c s msg := by
    unfold stakeCall
    dsimp only
    rw [if_neg (fun hc => hc.2 rfl), if_pos rfl]
  cases m <;> try (cases hm; done)
  · cases hm; cases hmsg
    unfold call; dsimp only
    rw [if_neg (by rw [hlisted (by decide)]; decide)]
    exact hstake
  · cases hm; cases hmsg
    unfold call; dsimp only
    rw [if_neg (by rw [hlisted (by decide)]; decide)]
    exact hstake
  · cases hm; cases hmsg; exact hstake

example : (call toy toy0 1 1 (.delegate 1 70 ⟨1, 25⟩)).map (fun s => s.world.staked) = some [(1, 65)] := by decide +kernel

/-- Only coins on the list of assets are staked and unstaked. -/
theorem only_listed_coins_are_staked {c : Chain W} {s s' : St W} {o b d v : Addr} {coin : Coin} :
    (call c s o b (.delegate d v coin) = some s' → c.listed s.world coin.denom = true) ∧
    (call c s o b (.undelegate d v coin) = some s' → c.listed s.world coin.denom = true) := by
  constructor
  all_goals
    intro h
    unfold call at h
    dsimp only at h
    cases hl : c.listed s.world coin.denom with
    | true => rfl
    | false => rw [if_pos hl] at h; cases h

example : (call toy toy0 1 1 (.delegate 1 70 ⟨2, 25⟩)).isSome ∧ (call toy toy0 1 1 (.delegate 1 70 ⟨3, 25⟩)).isNone := by decide +kernel

/-- Validators are created and edited by nobody but the account itself, without a contract in between. -/
theorem validators_are_managed_by_themselves {c : Chain W} {s s' : St W} {o b v : Addr} {self : Coin} {body : Nat} :
    (call c s o b (.createValidator v self body) = some s' → b = v ∧ o = v) ∧
    (call c s o b (.editValidator v body) = some s' → b = v ∧ o = v) := by
  constructor
  · intro h
    obtain ⟨h1, h2, _⟩ := validatorCall_cases (v := v) h
    exact ⟨h1.trans h2, h2⟩
  · intro h
    obtain ⟨h1, h2, _⟩ := validatorCall_cases (v := v) h
    exact ⟨h1.trans h2, h2⟩

/-- Over any history, with any other calls between them and with time passing: what `b` moved of the stake and coins of `a` with
messages of one kind is at most what the first state and `a`'s own transactions allowed it to, unless `a` once gave an unlimited grant. -/
theorem moved_within_what_was_allowed {c : Chain W} {a b : Addr} {k : Kind} (hab : b ≠ a) (s : St W) (ops : List (Op W))
    (hgl : ∀ op ∈ ops, gives_limit a b k op) (hl : Limited s a b k) :
    total (fun s op => moved c s a b k op) c s ops ≤ room s a b k + total (fun s op => allowed c s a b k op) c s ops :=
  Nat.le_trans (Nat.le_add_right _ _) (run_bound hab ops s hgl hl)

/-- A contract that uses up and exceeds its allowance. -/
def greedy : List (Op Toy) :=
  [.call 1 1 (.approve 9 (some 60) [.delegate]), .call 1 9 (.delegate 1 70 ⟨1, 40⟩), .call 1 9 (.delegate 1 70 ⟨1, 40⟩),
   .call 1 1 (.increaseAllowance 9 (some 5) [.delegate, .undelegate]), .call 1 1 (.increaseAllowance 9 (some 5) [.delegate]),
   .call 1 9 (.delegate 1 70 ⟨1, 25⟩), .call 1 9 (.delegate 1 70 ⟨1, 1⟩)]

example : total (fun s op => moved toy s 1 9 .delegate op) toy toy0 greedy = 65
    ∧ total (fun s op => allowed toy s 1 9 .delegate op) toy toy0 greedy = 65 := by decide +kernel

/-- The full claim that is not true: what happens to an account through the precompiled contracts was asked for by itself, either by calling
or by a grant it gave in a call or message of its own. -/
def ActsOnlyByConsent (c : Chain W) (touched : W → W → Addr → Prop) : Prop :=
  ∀ (s : St W) (ops : List (Op W)) (a : Addr), s.grants = [] →
    (∀ op ∈ ops, (∃ o b m, op = .call o b m ∧ b ≠ a) ∨ ∃ dt, op = .tick dt) → ¬ touched s.world (run c s ops).world a

/-- Any contract a user happens to call may stake for them: it first approves itself, which the staking contract takes as an approval by the
signer of the transaction, and then uses that approval. The effect is the one of the user's own delegation, for every validator
that is not jailed and every amount. -/
theorem called_contracts_stake_for_the_signer {c : Chain W} {s : St W} {user contract v : Addr} {n : Nat} {w : W} (hne : contract ≠ user)
    (hn : 0 < n) (hlasts : 0 < c.lasts) (hv : v ∈ c.active s.world) (hlisted : c.listed s.world c.bond = true)
    (hx : c.exec s.world (.delegate user v ⟨c.bond, n⟩) = some w) :
    (run c s [.call user contract (.approve contract (some n) [.delegate]), .call user contract (.delegate user v ⟨c.bond, n⟩)]).world = w := by
  obtain ⟨m, rfl⟩ : ∃ m, n = m + 1 := ⟨n - 1, by omega⟩
  have hact : c.active s.world ≠ [] := fun he => by rw [he] at hv; cases hv
  let g : Grant := ⟨.stake (some ⟨c.bond, m + 1⟩) (c.active s.world) [], some (s.now + c.lasts)⟩
  have h1 : call c s user contract (.approve contract (some (m + 1)) [.delegate])
      = some { s with grants := KV.set s.grants (user, contract, .delegate) g } := by
    unfold call
    dsimp only
    rw [if_neg (by decide)]
    unfold forKinds grantOrDelete createGrant
    dsimp only
    rw [if_neg hact, saveGrant_ok (by intro e he; cases he; omega)]
    rfl
  obtain ⟨s', h2, hw, _⟩ := granted_calls_succeed (c := c) (s := { s with grants := KV.set s.grants (user, contract, .delegate) g })
    (o := user) (b := contract) (v := v) (k := .delegate) (coin := ⟨c.bond, m + 1⟩) (m := .delegate user v ⟨c.bond, m + 1⟩)
    (msg := .delegate user v ⟨c.bond, m + 1⟩) (g := g) (w := w) rfl (fun _ => hlisted) hne
    (by show KV.get (KV.set _ _ _) _ = _; rw [KV.get_set, if_pos rfl])
    ⟨by intro e he; cases he; show s.now ≤ s.now + c.lasts; omega, some ⟨c.bond, m + 1⟩, c.active s.world, [], rfl, List.not_mem_nil, fun _ => hv,
      by intro l hl; cases hl; exact ⟨rfl, Nat.le_refl _⟩⟩
    (by intro e he; cases he; show s.now < s.now + c.lasts; omega) rfl hx
  have e1 : next c s (.call user contract (.approve contract (some (m + 1)) [.delegate]))
      = { s with grants := KV.set s.grants (user, contract, .delegate) g } := by
    show (call c s user contract (.approve contract (some (m + 1)) [.delegate])).getD s = _
    rw [h1]
    rfl
  show (next c (next c s _) _).world = w
  rw [e1]
  show ((call c { s with grants := KV.set s.grants (user, contract, .delegate) g } user contract
    (.delegate user v ⟨c.bond, m + 1⟩)).getD _).world = w
  rw [h2]
  exact hw

example : (70 : Addr) ∈ toy.active toy0.world ∧ (toy.exec toy0.world (.delegate 1 70 ⟨1, 500⟩)).isSome := by decide +kernel

/-- So the full claim fails, here for all 500 coins of account 1. -/
theorem consent_is_not_needed : ¬ ActsOnlyByConsent toy toyOwnership.touched := by
  intro h
  refine h toy0 [.call 1 9 (.approve 9 (some 500) [.delegate]), .call 1 9 (.delegate 1 70 ⟨1, 500⟩)] 1 rfl ?_ ?_
  · intro op hm
    simp only [List.mem_cons, List.not_mem_nil, or_false] at hm
    rcases hm with rfl | rfl
    · exact .inl ⟨1, 9, _, rfl, by decide⟩
    · exact .inl ⟨1, 9, _, rfl, by decide⟩
  · show Toy.owns _ _ ≠ Toy.owns _ _
    decide +kernel

/-- Anybody may release any validator from jail, whoever signs and whoever calls: the call is the validator's own message. -/
theorem anyone_unjails_any_validator {c : Chain W} (s : St W) (o b v : Addr) :
    call c s o b (.unjail v) = (c.exec s.world (.unjail v)).map (fun w => { s with world := w }) := rfl

example : (call toy toy0 1 9 (.unjail 71)).map (fun s => s.world.jailed) = some [] := by decide +kernel

/-- The methods of the distribution contract, the votes, the proposals, the bridge, the scheduled calls, logos and new tokens are admitted to any contract
for the account that signed the transaction, without any grant: the call is the message for the signer. In particular a contract may
redirect the signer's rewards to itself and give the signer's coins away. -/
theorem called_contracts_act_for_the_signer {c : Chain W} (s : St W) (user contract : Addr) (hu : user ≠ 0) :
    let does (m : Method) (msg : Msg) := call c s user contract m = (c.exec s.world msg).map (fun w => { s with world := w })
    (∀ to, does (.setWithdrawAddress user to) (.setWithdrawAddress user to)) ∧
    (∀ n, does (.claimRewards user n) (.claimRewards user n)) ∧
    (∀ v, does (.withdrawReward user v) (.withdrawReward user v)) ∧
    does (.withdrawCommission user) (.withdrawCommission user) ∧
    (∀ coin, does (.fundCommunityPool user coin) (.fundCommunityPool user coin)) ∧
    (∀ p body, does (.vote user p body) (.vote user p body)) ∧
    (∀ dep body, does (.submitProposal dep body) (.submitProposal user dep body)) ∧
    (∀ ch dest coin fee, does (.sendToChain ch dest coin fee) (.sendToChain user ch dest coin fee)) ∧
    (∀ ch id, does (.cancelSendToChain ch id) (.cancelSendToChain user ch id)) ∧
    (∀ body fee, does (.requestData body fee) (.requestData user contract body fee)) ∧
    (∀ orch id, does (.setOrchestrator orch id) (.setOrchestrator user orch id)) ∧
    (∀ body, does (.manageBridge body) (.manageBridge user body)) ∧
    (∀ body dep, does (.cron body dep) (.cron user body dep)) ∧
    (∀ body, does (.storeLogo body) (.storeLogo user body)) ∧
    (∀ d n, does (.createToken d n) (.createToken user d n)) := by
  have party : ∀ msg, partyCall c s user contract user msg = (c.exec s.world msg).map (fun w => { s with world := w }) := by
    intro msg
    unfold partyCall
    rw [if_neg (fun hc => hc.2 rfl)]
    rfl
  refine ⟨fun _ => party _, fun _ => party _, fun _ => party _, party _, fun _ => party _, fun _ _ => party _, fun _ _ => rfl,
    fun _ _ _ _ => rfl, fun _ _ => rfl, fun _ _ => rfl, fun _ _ => rfl, fun _ => rfl, fun _ _ => rfl, fun _ => rfl, fun d n => ?_⟩
  show call c s user contract (.createToken d n) = _
  unfold call
  dsimp only
  rw [if_neg hu]
  rfl

example : (call toy toy0 1 9 (.setWithdrawAddress 1 9)).map (fun s => s.world.payTo) = some [(1, 9)]
    ∧ (call toy toy0 1 9 (.fundCommunityPool 1 ⟨1, 500⟩)).map (fun s => s.world.coins) = some [(1, 0), (9, 30)] := by decide +kernel

/-- A contract that stakes its own coins needs a grant of whoever signed the transaction, and uses it up. -/
theorem own_stake_of_contracts_uses_the_signers_grant {c : Chain W} {s s' : St W} {o b v : Addr} {k : Kind} {coin : Coin} {m : Method}
    (hm : moves c m = some (k, b, v, coin)) (hbo : b ≠ o) (h : call c s o b m = some s') :
    ∃ g, KV.get s.grants (o, b, k) = some g ∧ Permits s.now g v coin ∧ Used g coin (KV.get s'.grants (o, b, k)) := by
  obtain ⟨msg, _, _, hs⟩ := call_moves hm h
  rcases (stakeCall_cases hs).2 with ⟨e, _⟩ | ⟨_, hr⟩
  · exact absurd e hbo
  · obtain ⟨g, limit, allow, deny, w, hg, hlive, hau, hamt, _, ha⟩ := stakeWithGrant_cases hr
    obtain ⟨au, ex⟩ := g
    cases hau
    obtain ⟨hcov, hac⟩ := accept_cases ha
    obtain ⟨hd1, hd2⟩ := covers_iff.mp hcov
    refine ⟨_, hg, ⟨hlive, limit, allow, deny, rfl, hd1, hd2, ?_⟩, ?_⟩
    · intro l hl
      rcases hac with ⟨hn, _⟩ | ⟨l', hl', hden, _, _⟩ | ⟨l', hl', hden, _, _⟩
      · rw [hl] at hn; cases hn
      · rw [hl] at hl'; cases hl'; exact ⟨hden, hamt l hl⟩
      · rw [hl] at hl'; cases hl'; exact ⟨hden, hamt l hl⟩
    · unfold Used
      rcases hac with ⟨rfl, hsv⟩ | ⟨l', rfl, _, heq, hdl⟩ | ⟨l', rfl, _, hlt, hsv⟩
      · exact get_save hsv
      · exact ⟨fun _ => get_delete hdl, fun hl => by omega⟩
      · exact ⟨fun hl => by omega, fun _ => get_save hsv⟩

example : (call toy toy0 1 9 (.delegate 9 70 ⟨1, 20⟩)).isNone
    ∧ (call toy toy1 1 9 (.delegate 9 70 ⟨1, 20⟩)).map (fun s => (s.world.coins, KV.get s.grants (1, 9, .delegate)))
      = some ([(9, 10), (1, 500)], some ⟨.stake (some ⟨1, 40⟩) [70] [], some 110⟩) := by decide +kernel

/-- Allowances for cancelling cannot be raised, though they can be given and lowered. -/
theorem cancel_allowances_cannot_be_raised {c : Chain W} (s : St W) (o b g : Addr) (n : Option Nat) (ks : List Kind) (hk : .cancel ∈ ks) :
    call c s o b (.increaseAllowance g n ks) = none := by
  unfold call
  dsimp only
  by_cases hks : ks = []
  · rw [if_pos hks]
  rw [if_neg hks]
  clear hks
  induction ks generalizing s with
  | nil => cases hk
  | cons k ks ih =>
    unfold forKinds
    cases hx : increase s o g n k with
    | none => rfl
    | some s' =>
      dsimp only
      rcases List.mem_cons.mp hk with rfl | hm
      · exact absurd rfl (increase_cases hx).1
      · exact ih s' hm

example : (run toy toy0 [.call 1 1 (.approve 9 (some 60) [.cancel])]).grants.length = 1 := by decide +kernel

end Authority
