import Verif.Authority.TransfersLemmas4
/-! # Allowances for IBC transfers: the theorems -/
namespace Ics
variable {W : Type}

/-- A small chain: port 1 with channels 1 and 2; the name 8 stands for the coin 7; 9 is the token of a contract whose code runs when it is sent. -/
def toy : Chain Nat :=
  { hasChannel := fun _ p c => decide (p = 1 ∧ (c = 1 ∨ c = 2)), coinOf := fun _ n => if n = 8 then 7 else n,
    converts := fun _ m => decide (m.name = 9), exec := fun w _ => some (w + 1), lasts := 100 }

/-- An allocation for channel 1 and another for channel 2. -/
def two : List Alloc := [⟨1, 1, [(7, 60), (9, 10)], [], [1]⟩, ⟨1, 2, [(7, 5)], [33], []⟩]

def begun : St Nat := init 0 1000

/-! ## Whose coins, and by whose leave -/

/-- Coins leave only the account that signed the transaction or the contract that made the call (for `MsgExec`: granter or grantee), and never
none. -/
theorem from_signer_or_caller {c : Chain W} {w : W} {t : Nat} {ops : List (Op W)} {s : St W} (h : run c (init w t) ops = some s) :
    ∀ x ∈ s.log, (x.sender = x.signer ∨ x.sender = x.caller) ∧ 0 < x.amount :=
  (run_inv Fair (fun _ => True) (fun _ _ _ hp _ hs => fair_step hp hs) ops (fair_init w t) (fun _ _ => trivial) h).1

/-- Who calls the contract directly sends their own coins without any grant, and no others. -/
theorem own_call_iff {c : Chain W} {s : St W} {o : Addr} {m : Msg} (hf : s.frames = []) :
    (∃ s', step c s (.enter o o m) = some s') ↔ 0 < m.amount ∧ m.amount ≤ unlimited ∧ c.hasChannel s.world m.port m.chan = true ∧ m.sender = o := by
  constructor
  · rintro ⟨s', h⟩
    cases step_kind h with
    | enter _ _ _ r e he h =>
      obtain ⟨h1, h2, h3, _⟩ := enter_some h
      exact ⟨(validMsg_pos h1).1, (validMsg_pos h1).2, h2, h3.elim Eq.symm Eq.symm⟩
  · rintro ⟨h1, h2, h3, h4⟩
    have hmay : mayCall s o = true := by unfold mayCall; rw [hf]
    have hv : validMsg m = true := decide_eq_true ⟨h1, by rw [top_eq]; exact h2⟩
    refine ⟨push c s o o m .keep none false, ?_⟩
    unfold step
    dsimp only
    rw [if_pos hmay]
    unfold enter
    rw [if_neg (by rw [hv]; exact fun x => nomatch x), if_neg (by rw [h3]; exact fun x => nomatch x), if_neg (fun hh => hh.1 h4.symm), if_pos rfl]

example : (run toy begun [.enter 1 1 ⟨1, 1, 7, 10, 1, 33, 0⟩, .leave]).map (·.log) = some [⟨1, 1, 1, 1, 1, 7, 7, 10, 33, 0⟩]
    ∧ (run toy begun [.enter 1 1 ⟨1, 1, 7, 10, 2, 33, 0⟩]).isNone = true := by decide +kernel

/-- A transfer by a contract begins exactly if the sender is the contract or the signer, the channel exists, and the *signer* gave the contract a
grant that has not expired, whose allocation for that channel allows the receiver, the memo and the amount of that coin. -/
theorem by_contract_iff {c : Chain W} {s : St W} {o b : Addr} {m : Msg} (hb : b ≠ o) (hs : Sound s) (hf : s.frames = []) :
    (∃ s', step c s (.enter o b m) = some s') ↔
      0 < m.amount ∧ m.amount ≤ unlimited ∧ c.hasChannel s.world m.port m.chan = true ∧ (m.sender = b ∨ m.sender = o) ∧
      ∃ g as a, KV.get s.grants (o, b) = some g ∧ g.Valid s.now ∧ g.auth = .transfer as ∧
        as.find? (fun x => decide (x.port = m.port ∧ x.chan = m.chan)) = some a ∧ Covers a m ∧ m.amount ≤ left s o b m.port m.chan m.name := by
  have hleft : ∀ {g as a}, KV.get s.grants (o, b) = some g → g.auth = .transfer as → lookup as m.port m.chan = some a →
      left s o b m.port m.chan m.name = amountOf a.limit m.name := by
    intro g as a h1 h2 h3
    rw [left_eq, h1]
    show g.auth.allows _ _ _ = _
    rw [h2, allows_of_lookup h3]
  constructor
  · rintro ⟨s', h⟩
    cases step_kind h with
    | enter _ _ _ r e he h =>
      obtain ⟨h1, h2, h3, ⟨h4, _⟩ | ⟨_, g, as, r', hl, ha, hr, _⟩⟩ := enter_some h
      · exact absurd h4 hb
      · obtain ⟨hg, hv⟩ := live_some.1 hl
        obtain ⟨a, hal, hcov, hacc⟩ := accept_some (hs.1 _ _ _ hg ha) hr
        refine ⟨(validMsg_pos h1).1, (validMsg_pos h1).2, h2, h3.elim (fun x => .inl x.symm) (fun x => .inr x.symm), g, as, a, hg, hv, ha, hal, hcov, ?_⟩
        rw [hleft hg ha hal]
        rcases hacc with ⟨h5, _⟩ | ⟨_, h5, _⟩
        · rw [h5]; exact (validMsg_pos h1).2
        · exact h5 (validMsg_pos h1).1
  · rintro ⟨h1, h2, h3, h4, g, as, a, hg, hv, ha, hal, hcov, hle⟩
    rw [hleft hg ha hal] at hle
    obtain ⟨r, hr⟩ := accept_of hal hcov h1 hle
    have hmay : mayCall s o = true := by unfold mayCall; rw [hf]
    have hvm : validMsg m = true := decide_eq_true ⟨h1, by rw [top_eq]; exact h2⟩
    refine ⟨push c s o b m r g.expiry false, ?_⟩
    unfold step
    dsimp only
    rw [if_pos hmay]
    unfold enter
    rw [if_neg (by rw [hvm]; exact fun x => nomatch x), if_neg (by rw [h3]; exact fun x => nomatch x),
      if_neg (fun hh => h4.elim (fun x => hh.1 x.symm) (fun x => hh.2 x.symm)), if_neg hb, live_some.2 ⟨hg, hv⟩]
    dsimp only
    rw [ha]
    dsimp only
    rw [hr]

/-- The premise holds of every history that starts with nothing granted. -/
theorem sound_run {c : Chain W} {w : W} {t : Nat} {ops : List (Op W)} {s : St W} (h : run c (init w t) ops = some s) : Sound s :=
  run_inv Sound (fun _ => True) (fun _ _ _ hp _ hs => sound_step hp hs) ops (sound_init w t) (fun _ _ => trivial) h

example : ((run toy begun [.call 1 1 (.approve 50 two), .enter 1 50 ⟨1, 2, 7, 5, 1, 33, 0⟩]).isSome,
    (run toy begun [.call 1 1 (.approve 50 two), .enter 1 50 ⟨1, 2, 7, 6, 1, 33, 0⟩]).isSome,
    (run toy begun [.call 1 1 (.approve 50 two), .enter 1 50 ⟨1, 2, 7, 5, 1, 34, 0⟩]).isSome,
    (run toy begun [.call 1 1 (.approve 50 two), .enter 1 50 ⟨1, 2, 7, 5, 1, 33, 2⟩]).isSome) = (true, false, false, false) := by decide +kernel

/-! ## What the four methods do -/

/-- After an approval the contract may send what was approved, and `allowance` shows it. -/
theorem approve_sets {c : Chain W} {s s' : St W} {o k g : Addr} {as : List Alloc} (h : step c s (.call o k (.approve g as)) = some s') :
    (∀ p ch d, left s' o g p ch d = (Auth.transfer as).allows p ch d) ∧ allowance s' g o = some as ∧
    ∀ a b, (a, b) ≠ (o, g) → KV.get s'.grants (a, b) = KV.get s.grants (a, b) := by
  cases step_kind h with
  | call _ _ _ _ _ h =>
    obtain ⟨_, _, h3, _⟩ := approve_some h
    have hg : KV.get s'.grants (o, g) = some ⟨.transfer as, some (s.now + c.lasts)⟩ := by rw [h3.get, if_pos rfl]
    refine ⟨fun p ch d => ?_, ?_, fun a b hne => ?_⟩
    · rw [left_eq, hg]; rfl
    · have : live s' o g = some ⟨.transfer as, some (s.now + c.lasts)⟩ := live_some.2 ⟨hg, fun e he => by
        cases he
        rw [h3.now]
        exact Nat.le_add_right _ _⟩
      unfold allowance
      rw [this]
    · rw [h3.get, if_neg hne]

/-- Approvals are only accepted for channels that exist, with no channel and no coin twice, and with limits above zero. -/
theorem approve_needs {c : Chain W} {s s' : St W} {o k g : Addr} {as : List Alloc} (h : step c s (.call o k (.approve g as)) = some s') :
    (∀ a ∈ as, c.hasChannel s.world a.port a.chan = true) ∧ WellFormed as := by
  cases step_kind h with
  | call _ _ _ _ _ h =>
    obtain ⟨h1, h2, _, _⟩ := approve_some h
    exact ⟨h2, valid_wf h1⟩

example : ((step toy begun (.call 1 1 (.approve 50 two))).isSome,
    (step toy begun (.call 1 1 (.approve 50 (two.map fun a => { a with chan := 9 })))).isSome,
    (step toy begun (.call 1 1 (.approve 50 (two ++ two)))).isSome) = (true, false, false) := by decide +kernel

/-- After a revocation nothing is left, and `allowance` shows nothing. -/
theorem revoke_clears {c : Chain W} {s s' : St W} {o k g : Addr} (h : step c s (.call o k (.revoke g)) = some s') :
    (∀ p ch d, left s' o g p ch d = 0) ∧ allowance s' g o = some [] ∧
    ∀ a b, (a, b) ≠ (o, g) → KV.get s'.grants (a, b) = KV.get s.grants (a, b) := by
  cases step_kind h with
  | call _ _ _ _ _ h =>
    obtain ⟨_, _, h3⟩ := revoke_some h
    have hg : KV.get s'.grants (o, g) = none := by rw [h3.get, if_pos rfl]
    refine ⟨fun p ch d => ?_, ?_, fun a b hne => ?_⟩
    · rw [left_eq, hg]; rfl
    · unfold allowance live
      rw [hg]
    · rw [h3.get, if_neg hne]

/-- Raising adds the amount to the limit of that coin on that channel and to nothing else. -/
theorem increase_adds {c : Chain W} {s s' : St W} {o k g : Addr} {p ch d n : Nat} (hs : Sound s)
    (h : step c s (.call o k (.increase g p ch d n)) = some s') :
    0 < left s o g p ch d ∧ left s o g p ch d + n ≤ unlimited ∧
    (∀ p' ch' d', left s' o g p' ch' d' = left s o g p' ch' d' + (if p' = p ∧ ch' = ch ∧ d' = d then n else 0)) ∧
    ∀ a b, (a, b) ≠ (o, g) → KV.get s'.grants (a, b) = KV.get s.grants (a, b) := by
  cases step_kind h with
  | call _ _ _ _ _ h =>
    obtain ⟨_, x, as, a, m, hl, ha, hk, hm, hle, _, h3⟩ := increase_some h
    obtain ⟨hg, _⟩ := live_some.1 hl
    have hw := hs.1 _ _ _ hg ha
    have hleft : ∀ p ch d, left s o g p ch d = (Auth.transfer as).allows p ch d := by
      intro p ch d
      rw [left_eq, hg]
      show x.auth.allows _ _ _ = _
      rw [ha]
    have hm' : left s o g p ch d = m := by rw [hleft, allows_of_lookup hk, amountOf_eq hm]
    refine ⟨?_, by rw [hm']; exact hle, fun p' ch' d' => ?_, fun a b hne => by rw [h3.get, if_neg hne]⟩
    · rw [hm']; exact ((hw.2 a (lookup_mem hk).1).2 _ (KV.mem_of_get hm)).1
    · rw [h3.left, if_pos rfl]
      show (Auth.transfer _).allows _ _ _ = _
      rw [allows_put hw hk hm]
      by_cases hh : p' = p ∧ ch' = ch ∧ d' = d
      · rw [if_pos hh, if_pos hh, hh.1, hh.2.1, hh.2.2, hm']
      · rw [if_neg hh, if_neg hh, hleft]; rfl

/-- Lowering takes the amount, which must be there, from the limit of that coin on that channel and from nothing else. -/
theorem decrease_takes {c : Chain W} {s s' : St W} {o k g : Addr} {p ch d n : Nat} (hs : Sound s)
    (h : step c s (.call o k (.decrease g p ch d n)) = some s') :
    0 < left s o g p ch d ∧ n ≤ left s o g p ch d ∧
    (∀ p' ch' d', left s' o g p' ch' d' + (if p' = p ∧ ch' = ch ∧ d' = d then n else 0) = left s o g p' ch' d') ∧
    ∀ a b, (a, b) ≠ (o, g) → KV.get s'.grants (a, b) = KV.get s.grants (a, b) := by
  cases step_kind h with
  | call _ _ _ _ _ h =>
    obtain ⟨_, x, as, a, m, hl, ha, hk, hm, hle, _, h3⟩ := decrease_some h
    obtain ⟨hg, _⟩ := live_some.1 hl
    have hw := hs.1 _ _ _ hg ha
    have hleft : ∀ p ch d, left s o g p ch d = (Auth.transfer as).allows p ch d := by
      intro p ch d
      rw [left_eq, hg]
      show x.auth.allows _ _ _ = _
      rw [ha]
    have hm' : left s o g p ch d = m := by rw [hleft, allows_of_lookup hk, amountOf_eq hm]
    refine ⟨?_, by rw [hm']; exact hle, fun p' ch' d' => ?_, fun a b hne => by rw [h3.get, if_neg hne]⟩
    · rw [hm']; exact ((hw.2 a (lookup_mem hk).1).2 _ (KV.mem_of_get hm)).1
    · rw [h3.left, if_pos rfl]
      show (Auth.transfer _).allows _ _ _ + _ = _
      rw [allows_put hw hk hm]
      by_cases hh : p' = p ∧ ch' = ch ∧ d' = d
      · rw [if_pos hh, if_pos hh, hh.1, hh.2.1, hh.2.2, hm']; omega
      · rw [if_neg hh, if_neg hh, hleft]; rfl

example : (run toy begun [.call 1 1 (.approve 50 two), .call 1 1 (.increase 50 1 1 7 4), .call 1 1 (.decrease 50 1 2 7 2)]).map
    (fun s => (left s 1 50 1 1 7, left s 1 50 1 2 7, left s 1 50 1 1 9, allowance s 50 1))
    = some (64, 3, 10, some [⟨1, 1, [(7, 64), (9, 10)], [], [1]⟩, ⟨1, 2, [(7, 3)], [33], []⟩]) := by decide +kernel

/-- The end of a transfer that nothing has disturbed takes the amount from the limit of that coin on that channel, and from nothing else, unless
there is no limit. -/
theorem transfer_takes {c : Chain W} {s s1 s2 : St W} {o b : Addr} {m : Msg} (hb : b ≠ o) (hs : Sound s)
    (h1 : step c s (.enter o b m) = some s1) (h2 : step c s1 .leave = some s2) :
    (∃ x, s2.log = s.log ++ [x] ∧ x.signer = o ∧ x.caller = b ∧ x.sender = m.sender ∧ x.port = m.port ∧ x.chan = m.chan ∧ x.name = m.name ∧
      x.coin = c.coinOf s.world m.name ∧ x.amount = m.amount ∧ x.receiver = m.receiver ∧ x.memo = m.memo) ∧
    (∀ p ch d, left s2 o b p ch d + (if p = m.port ∧ ch = m.chan ∧ d = m.name ∧ left s o b p ch d ≠ unlimited then m.amount else 0) = left s o b p ch d) ∧
    ∀ a k, (a, k) ≠ (o, b) → KV.get s2.grants (a, k) = KV.get s.grants (a, k) := by
  cases step_kind h1 with
  | enter _ _ _ r e he h1 =>
    obtain ⟨hv, _, _, ⟨h4, _⟩ | ⟨_, g, as, r', hl, ha, hr, hs1⟩⟩ := enter_some h1
    · exact absurd h4 hb
    · subst hs1
      obtain ⟨hg, _⟩ := live_some.1 hl
      obtain ⟨a, hal, _, hacc⟩ := accept_some (hs.1 _ _ _ hg ha) hr
      have hleft : ∀ p ch d, left s o b p ch d = (Auth.transfer as).allows p ch d := by
        intro p ch d
        rw [left_eq, hg]
        show g.auth.allows _ _ _ = _
        rw [ha]
      rw [step_leave] at h2
      obtain ⟨f, fs, w, hf, _, h3⟩ := leave_some h2
      cases hf
      have hlog := (settle_frames h3).2.1
      refine ⟨⟨_, hlog, rfl, rfl, rfl, rfl, rfl, rfl, rfl, rfl, rfl, rfl⟩, ?_, ?_⟩
      · intro p ch d
        rcases hacc with ⟨hun, hkeep⟩ | ⟨hun, _, hnk, _, hafter⟩
        · have hs2 : left s2 o b p ch d = left s o b p ch d := by
            rcases settle_some h3 with ⟨_, rfl⟩ | ⟨h5, _⟩ | ⟨_, h5, _⟩
            · rfl
            · exact absurd (hkeep.symm.trans h5) (fun hh => nomatch hh)
            · exact absurd (hkeep.symm.trans h5) (fun hh => nomatch hh)
          rw [hs2, if_neg]
          · rfl
          · rintro ⟨rfl, rfl, rfl, hne⟩
            exact hne (by rw [hleft, allows_of_lookup hal, hun])
        · have hs2 : left s2 o b p ch d = r'.allows as p ch d := by
            rcases settle_some h3 with ⟨h5, _⟩ | ⟨h5, h6⟩ | ⟨as', h5, h6⟩
            · exact absurd h5 hnk
            · rw [h6.left, if_pos rfl]; rw [show r' = .delete from h5]; rfl
            · rw [h6.left, if_pos rfl]; rw [show r' = .update as' from h5]; rfl
          rw [hs2, hleft, ← hafter p ch d]
          by_cases hh : p = m.port ∧ ch = m.chan ∧ d = m.name
          · rw [if_pos hh, if_pos]
            refine ⟨hh.1, hh.2.1, hh.2.2, ?_⟩
            have := hafter p ch d
            rw [if_pos hh] at this
            rw [this, hh.1, hh.2.1, hh.2.2, allows_of_lookup hal]
            exact hun
          · rw [if_neg hh, if_neg (fun x => hh ⟨x.1, x.2.1, x.2.2.1⟩)]
      · intro a' k' hne
        rcases settle_some h3 with ⟨_, rfl⟩ | ⟨_, h6⟩ | ⟨_, _, h6⟩
        · rfl
        · rw [h6.get, if_neg hne]; rfl
        · rw [h6.get, if_neg hne]; rfl

example : (run toy begun [.call 1 1 (.approve 50 two), .enter 1 50 ⟨1, 1, 7, 25, 1, 44, 3⟩, .leave]).map
    (fun s => (left s 1 50 1 1 7, left s 1 50 1 2 7, left s 1 50 1 1 9, s.log)) = some (35, 5, 10, [⟨1, 50, 1, 1, 1, 7, 7, 25, 44, 3⟩]) := by
  decide +kernel

/-- No method touches a grant given by another than the signer of the transaction. -/
theorem grants_only_of_the_signer {c : Chain W} {s s' : St W} {o k a b : Addr} {m : Method} (ha : a ≠ o) (h : step c s (.call o k m) = some s') :
    KV.get s'.grants (a, b) = KV.get s.grants (a, b) := by
  cases step_kind h with
  | call _ _ _ g hw _ => rw [hw.get, if_neg (fun hk => ha (by cases hk; rfl))]

example : (run toy begun [.call 1 1 (.approve 50 two), .call 2 2 (.approve 50 [⟨1, 1, [(7, 1)], [], []⟩])]).map (fun s => left s 1 50 1 1 7) = some 60 := by
  decide +kernel

/-! ## Over whole histories -/

/-- The full claim, which is not true: what a contract sends under a grant never exceeds what the owner consented to. -/
def NeverExceeded (c : Chain W) : Prop :=
  ∀ (w : W) (t : Nat) (ops : List (Op W)) (s : St W) (a b : Addr) (p ch d : Nat), a ≠ b → run c (init w t) ops = some s →
    total (consent a b p ch d) ops < unlimited → sentFor a b p ch d s.log ≤ total (consent a b p ch d) ops

/-- Partial: nothing else happens about the grant while a transfer under it is under way. Then, over any history of calls and Cosmos messages,
what was sent, what is left and what was taken back together are at most what was left and consented to. Missing: transfers that run the
code of a token which uses the same grant; see `consent_exceeded`. -/
theorem sent_within_consent_partial {c : Chain W} {a b : Addr} {p ch d : Nat} (hab : a ≠ b) {s s' : St W} {ops : List (Op W)} (hs : Sound s)
    (hf : s.frames = []) (hr : run c s ops = some s') (hu : Undisturbed c a b s ops)
    (hlt : sentFor a b p ch d s.log + left s a b p ch d + total (consent a b p ch d) ops < unlimited) :
    sentFor a b p ch d s'.log + left s' a b p ch d + total (takenBack a b p ch d) ops
      ≤ sentFor a b p ch d s.log + left s a b p ch d + total (consent a b p ch d) ops := by
  have hI : Acct a b p ch d 0 (sentFor a b p ch d s.log + left s a b p ch d) s := by
    refine ⟨hs, ?_, ?_, ?_, ?_⟩
    · rw [hf]; exact fun _ hx => nomatch hx
    · rw [hf]; exact List.Pairwise.nil
    · rw [hf]; exact fun _ hx => nomatch hx
    · rw [hf]; exact Nat.le_refl _
  have := (hI.run hab ops hlt hr hu).bound
  omega

/-- On a chain where no transfer runs the code of a token this needs no such premise. -/
theorem sent_within_consent_without_code {c : Chain W} (hc : ∀ w m, c.converts w m = false) {a b : Addr} {p ch d : Nat} (hab : a ≠ b) {w : W} {t : Nat}
    {s : St W} {ops : List (Op W)} (hr : run c (init w t) ops = some s) (hlt : total (consent a b p ch d) ops < unlimited) :
    sentFor a b p ch d s.log + left s a b p ch d + total (takenBack a b p ch d) ops ≤ total (consent a b p ch d) ops := by
  have h0 : sentFor a b p ch d (init w t).log + left (init w t) a b p ch d = 0 := rfl
  have := sent_within_consent_partial hab (sound_init w t) rfl hr (undisturbed_of_no_code hc a b ops (fun _ hx => nomatch hx) hr)
    (p := p) (ch := ch) (d := d) (by rw [h0, Nat.zero_add]; exact hlt)
  rw [h0, Nat.zero_add] at this
  exact this

/-- An allowance used three times, raised, lowered, and used by `MsgExec` too. -/
def thrifty : List (Op Nat) :=
  [.call 1 1 (.approve 50 two), .enter 1 50 ⟨1, 1, 7, 25, 1, 44, 3⟩, .leave, .call 1 1 (.increase 50 1 1 7 4), .tick 5, .exec 50 ⟨1, 1, 7, 9, 1, 44, 3⟩,
   .leave, .call 1 1 (.decrease 50 1 1 7 10), .enter 1 50 ⟨1, 1, 7, 20, 1, 44, 3⟩, .leave]

example : (run toy begun thrifty).map (fun s => (sentFor 1 50 1 1 7 s.log, left s 1 50 1 1 7)) = some (54, 0)
    ∧ total (consent 1 50 1 1 7) thrifty = 64 ∧ total (takenBack 1 50 1 1 7) thrifty = 10 := by decide +kernel

/-- A contract that was once allowed to send 10 of a token and 60 of a coin. Each time it sends one of the token, the code of the token
calls it back, and it sends all 60 of the coin; the end of the outer transfer puts the old limit back. -/
def greedy : List (Op Nat) :=
  [.call 1 1 (.approve 50 two),
   .enter 1 50 ⟨1, 1, 9, 1, 1, 44, 0⟩, .enter 1 50 ⟨1, 1, 7, 60, 1, 44, 0⟩, .leave, .leave,
   .enter 1 50 ⟨1, 1, 9, 1, 1, 44, 0⟩, .enter 1 50 ⟨1, 1, 7, 60, 1, 44, 0⟩, .leave, .leave]

/-- A contract that receives an allowance for a token of its own can send any multiple of what it was allowed of other coins: here 120 of 60, with
60 still left. -/
theorem consent_exceeded : (run toy begun greedy).map (fun s => (sentFor 1 50 1 1 7 s.log, left s 1 50 1 1 7)) = some (120, 60)
    ∧ total (consent 1 50 1 1 7) greedy = 60 ∧ ¬ NeverExceeded toy := by
  have h1 : (run toy begun greedy).map (fun s => (sentFor 1 50 1 1 7 s.log, left s 1 50 1 1 7)) = some (120, 60) := by decide +kernel
  have h2 : total (consent 1 50 1 1 7) greedy = 60 := by decide +kernel
  refine ⟨h1, h2, fun h => ?_⟩
  cases hr : run toy begun greedy with
  | none => rw [hr] at h1; cases h1
  | some s =>
    rw [hr] at h1
    have := h 0 1000 greedy s 1 50 1 1 7 (by decide) hr (by rw [h2]; decide +kernel)
    rw [h2] at this
    have h3 : sentFor 1 50 1 1 7 s.log = 120 := congrArg Prod.fst (Option.some.inj h1)
    omega

/-- Without a grant and without a transfer under way nothing is ever sent in the owner's transactions, by the contract or for it by `MsgExec`,
until the owner gives a grant; whatever code runs. -/
theorem nothing_without_grant {c : Chain W} {a b : Addr} (hab : a ≠ b) {s s' : St W} {ops : List (Op W)} (hg : KV.get s.grants (a, b) = none)
    (hf : ∀ f ∈ s.frames, ¬ (f.signer = a ∧ f.caller = b)) (hr : run c s ops = some s') (hq : ∀ op ∈ ops, ¬ gives a b op) :
    s'.log.filter (fun x => decide (x.signer = a ∧ x.caller = b)) = s.log.filter (fun x => decide (x.signer = a ∧ x.caller = b)) :=
  (run_inv (Without a b (s.log.filter (fun x => decide (x.signer = a ∧ x.caller = b)))) (fun op => ¬ gives a b op)
    (fun _ _ _ hp hop hs => without_step hab hp hop hs) ops ⟨hg, hf, rfl⟩ hq hr).2.2

/-- A revocation ends an allowance: afterwards the contract sends nothing more until it is given a new grant. -/
theorem revoked_for_good {c : Chain W} {a b k : Addr} (hab : a ≠ b) {s s1 s' : St W} {ops : List (Op W)} (hf : s.frames = [])
    (h1 : step c s (.call a k (.revoke b)) = some s1) (hr : run c s1 ops = some s') (hq : ∀ op ∈ ops, ¬ gives a b op) :
    s'.log.filter (fun x => decide (x.signer = a ∧ x.caller = b)) = s.log.filter (fun x => decide (x.signer = a ∧ x.caller = b)) := by
  cases step_kind h1 with
  | call _ _ _ _ _ h =>
    obtain ⟨_, _, h3⟩ := revoke_some h
    rw [nothing_without_grant hab (by rw [h3.get, if_pos rfl]) (by rw [h3.frames, hf]; exact fun _ hx => nomatch hx) hr hq, h3.log]

example : (run toy begun [.call 1 1 (.approve 50 two), .enter 1 50 ⟨1, 1, 7, 25, 1, 44, 3⟩, .leave, .call 1 1 (.revoke 50)]).isSome = true
    ∧ (run toy begun [.call 1 1 (.approve 50 two), .call 1 1 (.revoke 50), .enter 1 50 ⟨1, 1, 7, 25, 1, 44, 3⟩]).isNone = true := by decide +kernel

/-- But a revocation made while the code of a token runs is undone when the transfer ends. -/
theorem revocation_undone :
    (run toy begun [.call 1 1 (.approve 50 two), .enter 1 50 ⟨1, 1, 9, 1, 1, 44, 0⟩, .call 1 60 (.revoke 50)]).map (fun s => left s 1 50 1 1 7) = some 0
    ∧ (run toy begun [.call 1 1 (.approve 50 two), .enter 1 50 ⟨1, 1, 9, 1, 1, 44, 0⟩, .call 1 60 (.revoke 50), .leave]).map
      (fun s => left s 1 50 1 1 7) = some 60 := by decide +kernel

/-- An approval made at some time is of no use more than a year (`c.lasts`) later, whatever was raised, lowered or used in between, unless the owner
gives another grant. -/
theorem approval_ends {c : Chain W} {a b k : Addr} (hab : a ≠ b) {as : List Alloc} {s s1 s' : St W} {ops : List (Op W)} (hf : s.frames = [])
    (h1 : step c s (.call a k (.approve b as)) = some s1) (hr : run c s1 ops = some s') (hq : ∀ op ∈ ops, ¬ gives a b op)
    (hlate : s.now + c.lasts < s'.now) (m : Msg) :
    step c s' (.enter a b m) = none ∧ (m.sender = a → step c s' (.exec b m) = none) := by
  refine ended_enter hab (E := s.now + c.lasts) ?_ hlate m
  cases step_kind h1 with
  | call _ _ _ _ _ h =>
    obtain ⟨_, _, h3, _⟩ := approve_some h
    refine run_inv (Ends a b (s.now + c.lasts)) (fun op => ¬ gives a b op) (fun _ _ _ hp hop hs => ends_step hp hop hs) ops ⟨fun g hg => ?_, ?_⟩ hq hr
    · rw [h3.get, if_pos rfl] at hg
      cases hg
      exact ⟨_, rfl, Nat.le_refl _⟩
    · rw [h3.frames, hf]; exact fun _ hx => nomatch hx

example : (run toy begun [.call 1 1 (.approve 50 two), .tick 60, .call 1 1 (.increase 50 1 1 7 4), .tick 41]).map (·.now) = some 1101
    ∧ (run toy begun [.call 1 1 (.approve 50 two), .tick 60, .call 1 1 (.increase 50 1 1 7 4), .tick 39, .enter 1 50 ⟨1, 1, 7, 1, 1, 44, 0⟩, .leave]).isSome = true := by
  decide +kernel

/-! ## Where consent is not asked for, or asked of the wrong account -/

/-- Any contract a user happens to call may send away the coins of the user: it first approves itself, which counts as an approval by the
signer of the transaction. -/
theorem called_contracts_send_for_the_signer {c : Chain W} {s : St W} {user contract : Addr} {m : Msg} {w : W} (hf : s.frames = []) (hne : contract ≠ user)
    (hm : m.sender = user) (h0 : 0 < m.amount) (hle : m.amount ≤ unlimited) (hch : c.hasChannel s.world m.port m.chan = true) (hl : 0 < c.lasts)
    (hx : c.exec s.world m = some w) :
    ∃ as s', run c s [.call user contract (.approve contract as), .enter user contract m, .leave] = some s' ∧ s'.world = w ∧
      ∃ x, s'.log = s.log ++ [x] ∧ x.sender = user ∧ x.amount = m.amount ∧ x.receiver = m.receiver := by
  have hv : validMsg m = true := decide_eq_true ⟨h0, by rw [top_eq]; exact hle⟩
  let al : Alloc := ⟨m.port, m.chan, [(m.name, m.amount)], [], [1]⟩
  have hal : validAllocs [al] = true := by
    refine decide_eq_true ⟨(fun hh => nomatch hh), ?_, ?_⟩
    · exact List.nodup_cons.2 ⟨(fun hh => nomatch hh), List.nodup_nil⟩
    · intro a ha
      rw [List.mem_singleton.1 ha]
      refine ⟨decide_eq_true ⟨List.pairwise_singleton _ _, ?_⟩, List.nodup_nil⟩
      intro e he
      rw [List.mem_singleton.1 he, top_eq]
      exact ⟨h0, hle⟩
  let g : Grant := ⟨.transfer [al], some (s.now + c.lasts)⟩
  let s1 : St W := { s with grants := KV.set s.grants (user, contract) g }
  have hmay : mayCall s user = true := by unfold mayCall; rw [hf]
  have e1 : step c s (.call user contract (.approve contract [al])) = some s1 := by
    unfold step
    dsimp only
    rw [if_pos hmay]
    show approve c s user contract [al] = _
    unfold approve
    rw [hal]
    have hall : [al].all (fun a => c.hasChannel s.world a.port a.chan) = true := by
      show (c.hasChannel s.world m.port m.chan && true) = true
      rw [hch]; rfl
    rw [hall]
    simp only [Bool.true_eq_false, ↓reduceIte]
    unfold saveGrant
    dsimp only
    rw [if_neg (by omega)]
  have hs1 : live s1 user contract = some g := live_some.2 ⟨by show KV.get (KV.set _ _ _) _ = _; rw [KV.get_set, if_pos rfl], fun e he => by
    cases he
    exact Nat.le_add_right _ _⟩
  have hlk : lookup [al] m.port m.chan = some al := by rw [lookup_cons, if_pos ⟨rfl, rfl⟩]
  obtain ⟨r, hr⟩ := accept_of (as := [al]) hlk ⟨.inl rfl, .inr (.inl rfl)⟩ h0 (by
    show _ ≤ amountOf [(m.name, m.amount)] m.name
    rw [amountOf_cons, if_pos rfl]
    exact Nat.le_refl _)
  have e2 : step c s1 (.enter user contract m) = some (push c s1 user contract m r (some (s.now + c.lasts)) false) := by
    unfold step
    dsimp only
    rw [if_pos (show mayCall s1 user = true from hmay)]
    unfold enter
    rw [hv, show c.hasChannel s1.world m.port m.chan = true from hch]
    simp only [Bool.true_eq_false, ↓reduceIte]
    rw [if_neg (fun hh => hh.2 hm.symm), if_neg hne, hs1]
    dsimp only [g]
    rw [hr]
  have hsettle : ∀ s2 : St W, s2.grants = s1.grants → s2.now = s.now →
      ∃ s3, settle s2 ⟨user, contract, m, r, some (s.now + c.lasts), false, c.converts s1.world m⟩ = some s3 := by
    intro s2 hg2 hn2
    unfold settle
    dsimp only
    cases r with
    | keep => exact ⟨_, rfl⟩
    | delete =>
      dsimp only
      unfold deleteGrant
      rw [hg2, (live_some.1 hs1).1]
      exact ⟨_, rfl⟩
    | update as' =>
      dsimp only
      unfold saveGrant
      dsimp only
      rw [hn2, if_neg (by omega)]
      exact ⟨_, rfl⟩
  let f : Frame := ⟨user, contract, m, r, some (s.now + c.lasts), false, c.converts s1.world m⟩
  obtain ⟨s3, h3⟩ := hsettle { push c s1 user contract m r (some (s.now + c.lasts)) false with
    frames := s.frames, world := w, log := s.log ++ [f.packet c s.world] } rfl rfl
  have e3 : step c (push c s1 user contract m r (some (s.now + c.lasts)) false) .leave = some s3 := by
    rw [step_leave]
    unfold leave push
    dsimp only
    rw [show c.exec s1.world m = some w from hx]
    exact h3
  obtain ⟨_, k2, _, k4⟩ := settle_frames h3
  refine ⟨[al], s3, ?_, k4, f.packet c s.world, k2, hm, rfl, rfl⟩
  unfold run
  rw [e1]
  show run c s1 _ = _
  unfold run
  rw [e2]
  show run c _ _ = _
  unfold run
  rw [e3]
  rfl

example : (run toy begun [.call 1 66 (.approve 66 [⟨1, 1, [(7, 500)], [], [1]⟩]), .enter 1 66 ⟨1, 1, 7, 500, 1, 44, 0⟩, .leave]).map (·.log)
    = some [⟨1, 66, 1, 1, 1, 7, 7, 500, 44, 0⟩] := by decide +kernel

/-- A contract that sends coins of its own needs a grant of whoever signed the transaction. -/
theorem own_coins_need_the_signers_grant {c : Chain W} {s : St W} {o b : Addr} {m : Msg} (hb : b ≠ o) (hg : KV.get s.grants (o, b) = none) :
    step c s (.enter o b m) = none := by
  cases h : step c s (.enter o b m) with
  | none => rfl
  | some s' =>
    exfalso
    cases step_kind h with
    | enter _ _ _ r e he h =>
      obtain ⟨_, _, _, ⟨h3, _⟩ | ⟨_, g, _, _, hl, _⟩⟩ := enter_some h
      · exact hb h3
      · have := (live_some.1 hl).1
        rw [hg] at this
        cases this

/-- And it uses up what the signer allowed it of the signer's coins: 60 of its own sent, nothing left of the 60. -/
theorem own_coins_use_up_the_signers_grant :
    (run toy begun [.call 1 1 (.approve 50 two), .enter 1 50 ⟨1, 1, 7, 60, 50, 44, 0⟩, .leave]).map (fun s => (left s 1 50 1 1 7, s.log))
      = some (0, [⟨1, 50, 50, 1, 1, 7, 7, 60, 44, 0⟩]) := by decide +kernel

/-- A limit is kept for the name the message uses, not for the coin that leaves: with nothing allowed of coin 7, the contract sends 20 of it under
another name. -/
theorem limit_is_of_the_name :
    (run toy begun [.call 1 1 (.approve 50 [⟨1, 1, [(8, 20)], [], []⟩]), .enter 1 50 ⟨1, 1, 8, 20, 1, 44, 0⟩, .leave]).map
      (fun s => s.log.map (fun x => (x.name, x.coin, x.amount))) = some [(8, 7, 20)]
    ∧ (run toy begun [.call 1 1 (.approve 50 [⟨1, 1, [(8, 20)], [], []⟩])]).map (fun s => left s 1 50 1 1 7) = some 0 := by decide +kernel

/-- An allowance that was used up or lowered to nothing cannot be raised. -/
theorem empty_cannot_be_raised {c : Chain W} {s : St W} {o k g : Addr} {p ch d n : Nat} (hs : Sound s) (h0 : left s o g p ch d = 0) :
    step c s (.call o k (.increase g p ch d n)) = none := by
  cases h : step c s (.call o k (.increase g p ch d n)) with
  | none => rfl
  | some s' =>
    have := (increase_adds hs h).1
    omega

example : (run toy begun [.call 1 1 (.approve 50 two), .call 1 1 (.decrease 50 1 2 7 5)]).map (fun s => (left s 1 50 1 2 7, allowance s 50 1))
    = some (0, some [⟨1, 1, [(7, 60), (9, 10)], [], [1]⟩, ⟨1, 2, [], [33], []⟩])
    ∧ (run toy begun [.call 1 1 (.approve 50 two), .call 1 1 (.decrease 50 1 2 7 5), .call 1 1 (.increase 50 1 2 7 5)]).isNone = true := by decide +kernel

/-- An allowance raised to 2^256 - 1 is one without limit. -/
theorem raised_to_the_end_is_unlimited :
    (run toy begun [.call 1 1 (.approve 50 [⟨1, 1, [(7, unlimited - 5)], [], []⟩]), .call 1 1 (.increase 50 1 1 7 5),
      .enter 1 50 ⟨1, 1, 7, 1000, 1, 44, 0⟩, .leave]).map (fun s => decide (left s 1 50 1 1 7 = unlimited)) = some true
    ∧ (run toy begun [.call 1 1 (.approve 50 [⟨1, 1, [(7, unlimited - 5)], [], []⟩]), .call 1 1 (.increase 50 1 1 7 4),
      .enter 1 50 ⟨1, 1, 7, 1000, 1, 44, 0⟩, .leave]).map (fun s => decide (left s 1 50 1 1 7 = unlimited - 1001)) = some true := by decide +kernel

end Ics
