import Verif.Authority.ProposeLemmas
/-!
# C109: governance proposals made from the EVM, and their execution
-/
namespace Propose

/-! ## A small chain for the examples -/

def demoEnv : Env := { gov := 99, least := 10, space := fun c => c == ' ', mintModular := ['m', 'i', 'n', 't', 'x'] }
def demoState : State := { bal := fun a => if a = 1 then 30000000000000000000 else if a = 7 then 500 else 0 }
def send (src dst n : Nat) : Msg :=
  { url := ['/', 'c', '.', 'b', 'a', 'n', 'k', '.', 'v', '1', '.', 'M', 's', 'g'], field := .other, name := src, act := .pay dst n }
def ask (a : Ask) (d : Nat) : Req := { origin := 1, caller := 5, title := ['t'], description := ['d'], deposit := d, ask := a }

def Res.accepted : Res → Bool
  | .ok .. => true
  | _ => false

def Res.state (s : State) : Res → State
  | .ok s' _ => s'
  | _ => s

/-! ## Submission -/

/-- Which calls are accepted. -/
theorem accepted_iff (e : Env) (s : State) (r : Req) :
    (∃ s' id, propose e s r = .ok s' id) ↔
      InOrder r ∧ Works e s r.ask ∧ ∃ n, Costs r.ask r.deposit n ∧ e.least ≤ n ∧ n ≤ s.bal r.origin := by
  constructor
  · rintro ⟨s', id, h⟩
    obtain ⟨n, h1, h2, h3, h4, h5, _⟩ := propose_ok h
    exact ⟨argsOk_iff.1 h1, tried_iff.1 h4, n, costs_iff.1 h2, h3, h5⟩
  · rintro ⟨h1, h4, n, h2, h3, h5⟩
    obtain ⟨s', h⟩ := propose_of (argsOk_iff.2 h1) (costs_iff.2 h2) h3 (tried_iff.2 h4) h5
    exact ⟨s', _, h⟩

example : (propose demoEnv demoState (ask (.modular (send 7 8 100) []) 20)).accepted = true := by decide +kernel
example : (propose demoEnv demoState (ask (.modular (send 7 8 501) []) 20)).accepted = false := by decide +kernel
example : (propose demoEnv demoState (ask (.modular (send 7 8 100) []) 9)).accepted = false := by decide +kernel
example : (propose demoEnv demoState (ask (.addAssets 3 true) 10)).accepted = true := by decide +kernel

/-- What an accepted call does: the origin of the transaction, whoever called, pays the deposit to governance, the proposal is added under the next number with that
deposit and with the origin as its proposer, and nothing else changes; in particular nothing the proposal asks for has been done. -/
theorem submitted (e : Env) (s s' : State) (r : Req) (id : Nat) (h : propose e s r = .ok s' id) :
    ∃ n, Costs r.ask r.deposit n ∧ Paid s.bal s'.bal r.origin e.gov n ∧ SameRules s s' ∧ id = s.next ∧ s'.next = s.next + 1 ∧
      s'.pending = s.pending ++ [{ id := id, proposer := r.origin, deposit := n, content := contentOf e r.ask }] := by
  obtain ⟨n, _, h2, _, _, h5, rfl, rfl⟩ := propose_ok h
  exact ⟨n, costs_iff.1 h2, move_paid h5, ⟨rfl, rfl, rfl, rfl⟩, rfl, rfl, rfl⟩

/-- **Proposals say what was asked for**: the proposal an accepted call adds has the content the call gave, nothing swapped, added or left out. -/
theorem filed_as_asked (e : Env) (s s' : State) (r : Req) (id : Nat) (h : propose e s r = .ok s' id) :
    ∃ p ∈ s'.pending, p.id = id ∧ p.proposer = r.origin ∧ AsAsked r.ask p.content := by
  obtain ⟨n, _, _, _, _, _, rfl, rfl⟩ := propose_ok h
  refine ⟨_, List.mem_append_right _ (List.mem_singleton.2 rfl), rfl, rfl, ?_⟩
  cases r.ask with
  | modular m route => exact ⟨_, rfl⟩
  | _ => rfl

/-- The account that makes the call does not matter. -/
theorem caller_does_not_matter (e : Env) (s : State) (r : Req) (c : Addr) : propose e s { r with caller := c } = propose e s r := rfl

/-- The full property about the cost: an accepted call costs the deposit it gives. -/
def CostsWhatItSays (e : Env) : Prop :=
  ∀ s s' r id, propose e s r = .ok s' id → r.origin ≠ e.gov → s'.bal r.origin + r.deposit = s.bal r.origin

/-- It holds for all methods but the one about parameters of blocks, and for that one when the deposit is below 2^63. -/
theorem costs_what_it_says_partial (e : Env) (s s' : State) (r : Req) (id : Nat) (h : propose e s r = .ok s' id) (hg : r.origin ≠ e.gov)
    (hb : r.ask.aboutBlocks → r.deposit < 2 ^ 63) :
    s'.bal r.origin + r.deposit = s.bal r.origin ∧ s'.bal e.gov = s.bal e.gov + r.deposit ∧ ∀ a, a ≠ r.origin → a ≠ e.gov → s'.bal a = s.bal a := by
  obtain ⟨n, hc, hp, _⟩ := submitted e s s' r id h
  have hn : n = r.deposit := by
    rcases hc with ⟨_, _, h⟩ | ⟨h1, k, h2, h3⟩ | ⟨_, _, _, h⟩
    · exact h
    · have := hb h1
      rw [pow63] at this h3
      rw [pow64] at h2
      omega
    · exact h
  have := hp.2.2 hg
  have := hp.1
  subst hn
  exact ⟨by omega, by omega, (hp.2.2 hg).2.2⟩

example : (propose demoEnv demoState (ask (.hyperion { (send 7 8 0) with kind := .hyperion }) 18446744073709551615)).accepted = true := by decide +kernel

/-- A proposal about blocks with a deposit of `k * 2^64 + d` costs only `d`. -/
theorem block_proposal_underpays (e : Env) (s s' : State) (r : Req) (id k d : Nat) (h : propose e s r = .ok s' id) (hb : r.ask.aboutBlocks)
    (hg : r.origin ≠ e.gov) (hd : d < 2 ^ 64) (hx : r.deposit = k * 2 ^ 64 + d) : s'.bal r.origin + d = s.bal r.origin := by
  obtain ⟨n, hc, hp, _⟩ := submitted e s s' r id h
  have hn : n = d := by
    rcases hc with ⟨h1, _⟩ | ⟨_, k', h2, h3⟩ | ⟨_, h1, _⟩
    · exfalso; revert hb h1; cases r.ask <;> simp [Ask.aboutAssets, Ask.aboutBlocks]
    · rw [pow64] at h2 hx hd
      rw [pow63] at h3
      omega
    · exact absurd hb h1
  have := hp.2.2 hg
  have := hp.1
  omega

/-- So the full property is false. -/
theorem does_not_cost_what_it_says : ¬ CostsWhatItSays demoEnv := by
  intro h
  have hp : propose demoEnv demoState (ask (.blockParams 1 1 true) 18446744073709551636) =
      .ok ((propose demoEnv demoState (ask (.blockParams 1 1 true) 18446744073709551636)).state demoState) 1 := by
    obtain ⟨s', hs⟩ := propose_of (e := demoEnv) (s := demoState) (r := ask (.blockParams 1 1 true) 18446744073709551636) (n := 20)
      (by decide +kernel) (by decide +kernel) (by decide +kernel) (by decide +kernel) (by decide +kernel)
    rw [hs]; rfl
  have h1 := h _ _ _ _ hp (by decide)
  have h2 := block_proposal_underpays _ _ _ _ _ 1 20 hp trivial (by decide) (by decide) (by decide)
  rw [← h2] at h1
  have : (ask (.blockParams 1 1 true) 18446744073709551636).deposit = 18446744073709551636 := rfl
  omega

/-- No deposit can reach 2^64, about 18.4 HLS: if governance asks for more, none of the six methods can be used. -/
theorem deposits_are_small (e : Env) (s : State) (r : Req) (h : 2 ^ 64 ≤ e.least) : ¬ ∃ s' id, propose e s r = .ok s' id := by
  rw [accepted_iff]
  rintro ⟨_, _, n, hc, hl, _⟩
  rw [pow64] at h
  rcases hc with ⟨_, h1, h2⟩ | ⟨_, k, _, h2⟩ | ⟨_, _, h1, h2⟩
  · rw [pow63] at h1; omega
  · rw [pow63] at h2; omega
  · rw [pow64] at h1; omega

example : ∃ e : Env, 2 ^ 64 ≤ e.least := ⟨{ demoEnv with least := 20000000000000000000 }, by decide⟩

/-- Which calls panic, so that the whole transaction is lost and not just the call. -/
theorem panics_when (e : Env) (s : State) (r : Req) : propose e s r = .panics ↔
    InOrder r ∧ ((r.ask.aboutAssets ∧ 2 ^ 63 ≤ r.deposit ∧ r.deposit < 2 ^ 64) ∨ (r.ask.aboutBlocks ∧ 2 ^ 63 ≤ r.deposit % 2 ^ 64)) := by
  rw [← argsOk_iff, ← panics_iff]
  unfold propose
  cases h1 : argsOk r
  · simp
  · simp only [Bool.true_eq_false, if_false, true_and]
    cases h2 : coins r.ask r.deposit with
    | refused => simp
    | panics => simp
    | amount n =>
      simp only [reduceCtorEq, iff_false]
      split
      · intro h; cases h
      · split
        · intro h; cases h
        · split
          · intro h; cases h
          · intro h; cases h

example : propose demoEnv demoState (ask (.removeAssets 3 true) 9223372036854775808) = .panics :=
  (panics_when _ _ _).2 ⟨⟨by decide, by decide, rfl⟩, Or.inl ⟨trivial, by decide, by decide⟩⟩

/-! ## Routes of proposals for modules -/

/-- The route under which a proposal for modules is filed. -/
theorem route_of (e : Env) (m : Msg) (explicit : Str) :
    (m.kind = .assetList → moduleRoute e explicit m = ['e', 'r', 'c', '2', '0', 'm', 'o', 'd', 'u', 'l', 'a', 'r']) ∧
    (m.kind = .inflation → moduleRoute e explicit m = e.mintModular) ∧
    (m.kind ≠ .assetList → m.kind ≠ .inflation →
      ∃ t, IsTrim e.space explicit t ∧ (t ≠ [] → moduleRoute e explicit m = t) ∧ (t = [] → SecondPart m.url (moduleRoute e explicit m))) := by
  refine ⟨?_, ?_, ?_⟩
  · intro h; unfold moduleRoute; rw [h]; rfl
  · intro h; unfold moduleRoute; rw [h]
  · intro h1 h2
    have : moduleRoute e explicit m = if trim e.space explicit = [] then inferRoute m.url else trim e.space explicit := by
      unfold moduleRoute
      split
      · rename_i h; exact absurd h h1
      · rename_i h; exact absurd h h2
      · rfl
    refine ⟨trim e.space explicit, trim_spec _ _, ?_, ?_⟩
    · intro h; rw [this, if_neg h]
    · intro h; rw [this, if_pos h]; exact inferRoute_spec _

example : moduleRoute demoEnv [' ', 'e', 'v', 'm', ' '] (send 1 2 3) = ['e', 'v', 'm'] ∧ moduleRoute demoEnv [' '] (send 1 2 3) = ['b', 'a', 'n', 'k'] := by
  decide +kernel

/-- The routes that take such proposals. -/
theorem routes (e : Env) (r : Str) : r ∈ genericRoutes e ↔
    r = e.mintModular ∨ r ∈ ["slashing", "erc20modular", "upgrade", "bank", "distribution", "staking", "auth", "crisis", "evm", "feemarket", "revenue", "tokenfactory",
      "logos", "inflation"].map String.toList := by
  have h : ["slashing", "erc20modular", "upgrade", "bank", "distribution", "staking", "auth", "crisis", "evm", "feemarket", "revenue", "tokenfactory",
      "logos", "inflation"].map String.toList = (genericRoutes { e with mintModular := ['b', 'a', 'n', 'k'] }).eraseIdx 2 := by
    simp [genericRoutes, erc20Modular]
  rw [h]
  simp only [genericRoutes, List.eraseIdx, List.mem_cons, List.not_mem_nil, or_false]
  constructor
  · rintro (h | h | h | h)
    · exact Or.inr (Or.inl h)
    · exact Or.inr (Or.inr (Or.inl h))
    · exact Or.inl h
    · exact Or.inr (Or.inr (Or.inr h))
  · rintro (h | h | h | h)
    · exact Or.inr (Or.inr (Or.inl h))
    · exact Or.inl h
    · exact Or.inr (Or.inl h)
    · exact Or.inr (Or.inr (Or.inr h))

/-- A proposal filed under another route is refused, for instance one for a message of the bridge or of the token registry without an explicit route. -/
theorem other_routes_refused (e : Env) (s : State) (r : Req) (m : Msg) (x : Str) (ha : r.ask = .modular m x)
    (h : moduleRoute e x m ∉ genericRoutes e) : ¬ ∃ s' id, propose e s r = .ok s' id := by
  rw [accepted_iff, ha]
  rintro ⟨_, hw, _⟩
  rcases hw with hw | ⟨s', hw⟩
  · exact hw
  · exact h hw.1

example : moduleRoute demoEnv [] { (send 1 2 3) with url := ['/', 'h', '.', 'h', 'y', 'p', 'e', 'r', 'i', 'o', 'n', '.', 'M'] } ∉ genericRoutes demoEnv := by decide +kernel

/-- The route says nothing about the messages: each of the routes executes every list of messages in the same way. -/
theorem route_is_no_limit (e : Env) (s s' : State) (ms : List Msg) (r r' : Str) (h : r ∈ genericRoutes e) (h' : r' ∈ genericRoutes e) :
    execute e s (.modules r ms) = some s' ↔ execute e s (.modules r' ms) = some s' := by
  rw [execute_iff, execute_iff]
  exact ⟨fun x => ⟨h', x.2⟩, fun x => ⟨h, x.2⟩⟩

example : ['b', 'a', 'n', 'k'] ∈ genericRoutes demoEnv ∧ ['e', 'v', 'm'] ∈ genericRoutes demoEnv := by decide +kernel

/-! ## Execution -/

/-- What the execution of a content does. -/
theorem executes_iff (e : Env) (s s' : State) (c : Content) : execute e s c = some s' ↔ Executes e s c s' := execute_iff

/-- When a proposal passes its deposit is returned first, and then either all of its messages are executed or none. -/
theorem passed (e : Env) (s s' : State) (id : Nat) (p : Proposal) (hp : lookup s id = some p) (h : finish e s id .passed = some s') :
    ∃ s1, Paid s.bal s1.bal e.gov p.proposer p.deposit ∧ SameRules s s1 ∧ s1.pending = s.pending.filter (fun q => q.id ≠ id) ∧ s1.next = s.next ∧
      (Executes e s1 p.content s' ∨ ((¬ ∃ x, Executes e s1 p.content x) ∧ s' = s1)) := by
  have h0 := h
  unfold finish at h
  rw [hp] at h
  dsimp only at h
  split at h
  · cases h
  · rename_i s1 h1
    obtain ⟨_, h2, h3, h4, h5, _⟩ := payOut_some h1
    rw [(lookup_mem hp).2] at h4
    refine ⟨s1, h5 (by intro h; cases h), h2, h4, h3, ?_⟩
    cases hx : execute e s1 p.content with
    | none =>
      rw [hx] at h; cases h
      refine Or.inr ⟨?_, rfl⟩
      rintro ⟨x, hxx⟩
      rw [← execute_iff, hx] at hxx
      cases hxx
    | some s2 => rw [hx] at h; cases h; exact Or.inl (execute_iff.1 hx)

def demoFiled : State := (propose demoEnv demoState (ask (.modular (send 7 8 100) []) 20)).state demoState

example : (lookup demoFiled 1).isSome = true ∧ ((finish demoEnv demoFiled 1 .passed).map (fun s => (s.bal 7, s.bal 8, s.bal 1))) = some (400, 100, 30000000000000000000) := by
  decide +kernel

/-- A proposal that does not pass does nothing: its deposit is returned, or burned if it was vetoed. -/
theorem not_passed (e : Env) (s s' : State) (id : Nat) (o : Outcome) (p : Proposal) (hp : lookup s id = some p) (ho : o ≠ .passed)
    (h : finish e s id o = some s') :
    SameRules s s' ∧ s'.next = s.next ∧ s'.pending = s.pending.filter (fun q => q.id ≠ id) ∧
      (o = .rejected → Paid s.bal s'.bal e.gov p.proposer p.deposit) ∧
      (o = .vetoed → p.deposit ≤ s.bal e.gov ∧ s'.bal e.gov = s.bal e.gov - p.deposit ∧ ∀ a, a ≠ e.gov → s'.bal a = s.bal a) := by
  obtain ⟨s1, h1, h2⟩ := finish_some hp h
  rcases h2 with rfl | ⟨h2, _⟩
  · obtain ⟨hd, h2, h3, h4, h5, h6⟩ := payOut_some h1
    rw [(lookup_mem hp).2] at h4
    exact ⟨h2, h3, h4, fun hr => h5 (by rw [hr]; intro h; cases h), fun hv => ⟨hd, h6 hv⟩⟩
  · exact absurd h2 ho

example : ((finish demoEnv demoFiled 1 .rejected).map (fun s => (s.bal 7, s.bal 1, s.bal 99))) = some (500, 30000000000000000000, 0) ∧
    ((finish demoEnv demoFiled 1 .vetoed).map (fun s => (s.bal 7, s.bal 1, s.bal 99))) = some (500, 29999999999999999980, 0) := by decide +kernel

/-- The rules change in no other way than by a proposal that passes. -/
theorem rules_change_only_by_passing (e : Env) (s s' : State) (o : Op) (h : step e s o = some s') (ho : ∀ id, o ≠ .finish id .passed) : SameRules s s' := by
  cases o with
  | propose r =>
    unfold step at h
    dsimp only at h
    split at h
    · rename_i s1 i hr
      cases h
      obtain ⟨_, _, _, h, _⟩ := submitted e s s' r i hr
      exact h
    · cases h; exact ⟨rfl, rfl, rfl, rfl⟩
  | finish id o =>
    have h' : finish e s id o = some s' := h
    cases hp : lookup s id with
    | none => rw [lookup_none_finish hp h']; exact ⟨rfl, rfl, rfl, rfl⟩
    | some p => exact (not_passed e s s' id o p hp (fun x => ho id (by rw [x])) h').1

/-- A setting that only governance may change is not changed by a message that names another account in a field that is not replaced: the proposal fails. -/
theorem foreign_change_fails (e : Env) (s : State) (r : Str) (ms : List Msg) (m : Msg) (hm : m ∈ ms) (hf : m.field = .other) (hn : m.name ≠ e.gov) (v : Nat)
    (ha : m.act = .set v) : execute e s (.modules r ms) = none := by
  cases hx : execute e s (.modules r ms) with
  | none => rfl
  | some s' =>
    exfalso
    rw [execute_iff] at hx
    have hd := hx.2
    clear hx
    revert s
    induction ms with
    | nil => cases hm
    | cons q ms ih =>
      intro s hd
      cases hd with
      | cons h1 h2 =>
        rcases List.mem_cons.1 hm with rfl | hm
        · unfold Does at h1
          rw [ha] at h1
          unfold actor at h1
          rw [hf] at h1
          exact hn h1.1
        · exact ih hm _ h2

example : ∃ m : Msg, m.field = .other ∧ m.name ≠ demoEnv.gov ∧ m.act = .set 4 := ⟨{ (send 7 8 1) with act := .set 4 }, by decide +kernel⟩

/-- What the proposer writes into `Authority` and `Signer` does not matter. -/
theorem written_authority_ignored (e : Env) (s : State) (r : Str) (ms : List Msg) (f : Msg → Addr) :
    execute e s (.modules r (ms.map fun m => if m.field = .other then m else { m with name := f m })) = execute e s (.modules r ms) := by
  unfold execute
  have : ∀ s, handleAll e s (ms.map fun m => if m.field = .other then m else { m with name := f m }) = handleAll e s ms := by
    induction ms with
    | nil => intro s; rfl
    | cons m ms ih =>
      intro s
      rw [List.map_cons]
      have hov : override e (if m.field = .other then m else { m with name := f m }) = override e m := by
        unfold override
        cases hf : m.field with
        | other => simp [hf]
        | authority => simp
        | signer => simp
      unfold handleAll
      rw [hov]
      split
      · rfl
      · rename_i s1 _; exact ih s1
  dsimp only
  rw [this]

/-- Nor does what they write into the message of a Hyperion proposal, which is always executed as governance. -/
theorem hyperion_acts_as_governance (e : Env) (s : State) (m : Msg) (a : Addr) :
    execute e s (.hyperion { m with name := a }) = execute e s (.hyperion m) := rfl

/-! ## Whose coins governance can take -/

/-- The coins of an account other than governance are taken only by messages that name it in a field other than `Authority` and `Signer`. -/
theorem takes_only_from_named_partial (e : Env) (s s' : State) (id : Nat) (a : Addr) (h : finish e s id .passed = some s') (ha : a ≠ e.gov)
    (hn : ∀ p, lookup s id = some p → ¬ Names p.content a) : s.bal a ≤ s'.bal a := by
  cases hp : lookup s id with
  | none => rw [lookup_none_finish hp h]; exact Nat.le_refl _
  | some p =>
    obtain ⟨s1, h1, h2⟩ := finish_some hp h
    obtain ⟨_, _, _, _, h5, _⟩ := payOut_some h1
    have hpd := h5 (by intro h; cases h)
    have hle : s.bal a ≤ s1.bal a := by
      by_cases hg : e.gov = p.proposer
      · rw [hpd.2.1 hg a]; exact Nat.le_refl _
      · have := hpd.2.2 hg
        by_cases hq : a = p.proposer
        · rw [hq, this.2.1]; omega
        · rw [this.2.2 a ha hq]; exact Nat.le_refl _
    rcases h2 with rfl | ⟨_, h2⟩
    · exact hle
    · exact Nat.le_trans hle (execute_bal h2 ha (hn p hp))

example : ¬ Names (.modules ['b', 'a', 'n', 'k'] [send 7 8 100]) 1 := by
  rintro ⟨r, ms, h, m, hm, _, hn⟩
  cases h
  rw [List.mem_singleton] at hm
  rw [hm] at hn
  exact absurd hn (by decide)

/-- But any account can be named: whoever it is, and whatever amount of its coins, a proposal that pays them to `thief` is accepted under the route of the bank, and
when it passes the coins are gone. The owner signs nothing. -/
theorem governance_takes_from_anyone (e : Env) (s : State) (r : Req) (victim thief n d : Nat) (url : Str)
    (hask : r.ask = .modular { url := url, field := .other, name := victim, act := .pay thief n } ['b', 'a', 'n', 'k'])
    (hsp : ∀ c ∈ ['b', 'a', 'n', 'k'], e.space c = false)
    (hin : InOrder r) (hd : r.deposit = d) (hd64 : d < 2 ^ 64) (hl : e.least ≤ d) (hbal : d ≤ s.bal r.origin) (hn : n ≤ s.bal victim)
    (hvo : victim ≠ r.origin) (hvg : victim ≠ e.gov) (hvt : victim ≠ thief) (hog : r.origin ≠ e.gov)
    (hnum : Numbered s) :
    ∃ s1 s2, propose e s r = .ok s1 s.next ∧ finish e s1 s.next .passed = some s2 ∧ s2.bal victim + n = s.bal victim := by
  have htrim : trim e.space ['b', 'a', 'n', 'k'] = ['b', 'a', 'n', 'k'] := by
    have hb := hsp 'b' (by simp)
    have hk := hsp 'k' (by simp)
    simp [trim, List.dropWhile, hb, hk]
  have hcont : contentOf e r.ask = .modules ['b', 'a', 'n', 'k'] [{ url := url, field := .other, name := victim, act := .pay thief n }] := by
    rw [hask]
    simp [contentOf, moduleRoute, htrim]
  have hmem : ['b', 'a', 'n', 'k'] ∈ genericRoutes e := by simp [genericRoutes]
  have hex : ∀ x : State, n ≤ x.bal victim →
      execute e x (contentOf e r.ask) = some { x with bal := move x.bal victim thief n } := by
    intro x hx
    rw [hcont]
    unfold execute
    dsimp only
    rw [if_pos hmem]
    have : handle e x (override e { url := url, field := .other, name := victim, act := .pay thief n }) = some { x with bal := move x.bal victim thief n } := by
      unfold override handle
      dsimp only
      rw [if_neg (by omega)]
    unfold handleAll
    rw [this]
    rfl
  have hco : coins r.ask r.deposit = .amount d := by
    rw [costs_iff, hask]
    exact Or.inr (Or.inr ⟨fun h => h, fun h => h, by rw [hd]; exact hd64, hd.symm⟩)
  have htried : tried e s (contentOf e r.ask) = true := by
    rw [tried_iff]
    exact Or.inr ⟨_, execute_iff.1 (hex s hn)⟩
  obtain ⟨s1, h1⟩ := propose_of (argsOk_iff.2 hin) hco hl htried hbal
  obtain ⟨n', hc', hp, _, _, _, hpend⟩ := submitted e s s1 r s.next h1
  have hn' : n' = d := by
    have := costs_iff.2 hc'
    rw [hco] at this
    injection this with this
    exact this.symm
  subst hn'
  have hv1 : s1.bal victim = s.bal victim := (hp.2.2 hog).2.2 victim hvo hvg
  have hg1 : s1.bal e.gov = s.bal e.gov + n' := (hp.2.2 hog).2.1
  have hlook : lookup s1 s.next = some { id := s.next, proposer := r.origin, deposit := n', content := contentOf e r.ask } := by
    unfold lookup
    rw [hpend, List.find?_append]
    have : s.pending.find? (fun p => p.id = s.next) = none := by
      rw [List.find?_eq_none]
      intro p hp
      have := hnum.2 p hp
      simp; omega
    rw [this]
    simp
  obtain ⟨s2, h2⟩ := payOut_isSome (e := e) (s := s1) (p := { id := s.next, proposer := r.origin, deposit := n', content := contentOf e r.ask }) (o := .passed)
    (by rw [hg1]; exact Nat.le_add_left _ _)
  obtain ⟨_, _, _, _, h5, _⟩ := payOut_some h2
  have hv2 : s2.bal victim = s.bal victim := by
    rw [← hv1]
    exact ((h5 (by intro h; cases h)).2.2 (fun x => hog x.symm)).2.2 victim hvg hvo
  refine ⟨s1, { s2 with bal := move s2.bal victim thief n }, h1, ?_, ?_⟩
  · unfold finish
    rw [hlook]
    dsimp only
    rw [h2]
    dsimp only
    rw [hex s2 (by omega)]
    rfl
  · show move s2.bal victim thief n victim + n = s.bal victim
    have := ((move_paid (b := s2.bal) (src := victim) (dst := thief) (n := n) (by omega)).2.2 hvt).1
    omega

/-- So governance does not only act as itself. -/
theorem governance_acts_for_others : ¬ TakesFromNobody demoEnv := by
  intro h
  cases hf : finish demoEnv demoFiled 1 .passed with
  | none => exact absurd (congrArg Option.isSome hf) (by decide +kernel)
  | some s' =>
    have h1 := h demoFiled s' 1 7 hf (by decide)
    have h2 : (finish demoEnv demoFiled 1 .passed).map (fun s => s.bal 7) = some 400 := by decide +kernel
    rw [hf] at h2
    have h3 : s'.bal 7 = 400 := by simpa using h2
    have h4 : demoFiled.bal 7 = 500 := by decide +kernel
    omega

/-! ## Numbers and deposits over histories -/

/-- Over every history proposals keep different numbers. -/
theorem numbers_differ (e : Env) (s s' : State) (os : List Op) (h0 : s.pending = []) (h : run e s os = some s') : Numbered s' :=
  run_numbered ⟨by rw [h0]; exact List.Pairwise.nil, by rw [h0]; intro p hp; cases hp⟩ h

example : (run demoEnv demoState [.propose (ask (.addAssets 3 true) 10), .propose (ask (.addAssets 4 true) 11), .finish 1 .passed]).map
    (fun s => (s.pending.map (·.id), s.assets, s.next)) = some ([2], 3, 3) := by decide +kernel

/-- The full property about deposits: no block ends with an error because a deposit cannot be paid out. -/
def DepositsAlwaysThere (e : Env) : Prop := ∀ s os, s.pending = [] → ∃ s', run e s os = some s'

/-- It holds over every history in which no proposal has a message that pays from the governance account, and the deposits are there all the time. -/
theorem deposits_always_there_partial (e : Env) (s : State) (os : List Op) (h0 : s.pending = []) (hos : ∀ o ∈ os, o.Spares e) :
    ∃ s', run e s os = some s' ∧ (s'.pending.map (·.deposit)).sum ≤ s'.bal e.gov := by
  obtain ⟨s', h1, _, h2⟩ := run_total (e := e) (s := s) (os := os) (by intro p hp; rw [h0] at hp; cases hp) (by unfold Backed; rw [h0]; exact Nat.zero_le _) hos
  exact ⟨s', h1, h2⟩

example : (Op.propose (ask (.modular (send 7 8 100) []) 20)).Spares demoEnv := by
  refine ⟨?_, by decide⟩
  show SparesGov demoEnv (.modules _ [send 7 8 100])
  intro m hm d n _
  rw [List.mem_singleton] at hm
  rw [hm]
  exact ⟨rfl, by decide⟩

/-- It is false in general: a proposal that pays out what governance holds takes the deposits of the other proposals along, and the first of them to end cannot. -/
theorem deposits_can_be_spent : ¬ DepositsAlwaysThere demoEnv := by
  intro h
  obtain ⟨s', hs⟩ := h demoState
    [.propose (ask (.addAssets 3 true) 50), .propose (ask (.modular (send 99 8 50) []) 20), .finish 2 .passed, .finish 1 .rejected] rfl
  have : (run demoEnv demoState
    [.propose (ask (.addAssets 3 true) 50), .propose (ask (.modular (send 99 8 50) []) 20), .finish 2 .passed, .finish 1 .rejected]).isSome = false := by
    decide +kernel
  rw [hs] at this
  cases this

/-- With the deposits there, the proposer of a proposal that names neither them nor the governance account has their deposit back when it passes. -/
theorem deposit_comes_back (e : Env) (s s' : State) (id : Nat) (p : Proposal) (hp : lookup s id = some p) (h : finish e s id .passed = some s')
    (hg : p.proposer ≠ e.gov) (hn : ¬ Names p.content p.proposer) : s.bal p.proposer + p.deposit ≤ s'.bal p.proposer := by
  obtain ⟨s1, h1, h2⟩ := finish_some hp h
  obtain ⟨_, _, _, _, h5, _⟩ := payOut_some h1
  have := ((h5 (by intro h; cases h)).2.2 (fun x => hg x.symm)).2.1
  rcases h2 with rfl | ⟨_, h2⟩
  · omega
  · have := execute_bal h2 hg hn
    omega

end Propose
