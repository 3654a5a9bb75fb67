import Verif.Authority.TransfersLemmas
/-! # Allowances for IBC transfers: the account of what was allowed and sent -/
namespace Ics
variable {W : Type}

theorem live_some {s : St W} {a b : Addr} {g : Grant} : live s a b = some g ↔ KV.get s.grants (a, b) = some g ∧ g.Valid s.now := by
  unfold live Grant.Valid
  cases hg : KV.get s.grants (a, b) with
  | none => exact ⟨(fun h => nomatch h), (fun h => nomatch h.1)⟩
  | some x =>
    dsimp only
    cases he : x.expiry with
    | none =>
      constructor
      · intro h; cases h; exact ⟨rfl, fun e h => by rw [he] at h; cases h⟩
      · intro h; exact h.1
    | some e =>
      dsimp only
      constructor
      · intro h
        split at h
        · cases h
        · next hn =>
          cases h
          exact ⟨rfl, fun e' h' => by rw [he] at h'; cases h'; omega⟩
      · intro ⟨h1, h2⟩
        cases h1
        rw [if_neg (Nat.not_lt.2 (h2 e he))]

theorem saveGrant_some {s s' : St W} {a b : Addr} {g : Grant} (h : saveGrant s a b g = some s') :
    s' = { s with grants := KV.set s.grants (a, b) g } ∧ ∀ e, g.expiry = some e → s.now < e := by
  unfold saveGrant at h
  cases he : g.expiry with
  | none => rw [he] at h; cases h; exact ⟨rfl, fun _ x => nomatch x⟩
  | some e =>
    rw [he] at h
    dsimp only at h
    split at h
    · cases h
    · cases h; exact ⟨rfl, fun _ x => by cases x; omega⟩

theorem deleteGrant_some {s s' : St W} {a b : Addr} (h : deleteGrant s a b = some s') :
    s' = { s with grants := KV.del s.grants (a, b) } ∧ ∃ g, KV.get s.grants (a, b) = some g := by
  unfold deleteGrant at h
  cases hg : KV.get s.grants (a, b) with
  | none => rw [hg] at h; cases h
  | some g => rw [hg] at h; cases h; exact ⟨rfl, g, rfl⟩

/-- A call writes or deletes one grant of the origin. -/
def Writes (s s' : St W) (a b : Addr) (g : Option Grant) : Prop :=
  match g with
  | none => s' = { s with grants := KV.del s.grants (a, b) }
  | some g => s' = { s with grants := KV.set s.grants (a, b) g }

theorem Writes.get {s s' : St W} {a b : Addr} {g : Option Grant} (h : Writes s s' a b g) (k : Addr × Addr) :
    KV.get s'.grants k = if k = (a, b) then g else KV.get s.grants k := by
  cases g with
  | none => cases h; exact KV.get_del _ _ _
  | some g => cases h; exact KV.get_set _ _ _ _

theorem Writes.frames {s s' : St W} {a b : Addr} {g : Option Grant} (h : Writes s s' a b g) : s'.frames = s.frames := by
  cases g <;> cases h <;> rfl

theorem Writes.log {s s' : St W} {a b : Addr} {g : Option Grant} (h : Writes s s' a b g) : s'.log = s.log := by
  cases g <;> cases h <;> rfl

theorem Writes.now {s s' : St W} {a b : Addr} {g : Option Grant} (h : Writes s s' a b g) : s'.now = s.now := by
  cases g <;> cases h <;> rfl

theorem Writes.world {s s' : St W} {a b : Addr} {g : Option Grant} (h : Writes s s' a b g) : s'.world = s.world := by
  cases g <;> cases h <;> rfl

/-- What a grant allows, if there is one. -/
def gAllows (g : Option Grant) (p c d : Nat) : Nat := match g with | none => 0 | some g => g.auth.allows p c d

theorem left_eq (s : St W) (a b : Addr) (p c d : Nat) : left s a b p c d = gAllows (KV.get s.grants (a, b)) p c d := rfl

theorem Writes.left {s s' : St W} {a b : Addr} {g : Option Grant} (h : Writes s s' a b g) (a' b' p c d : Nat) :
    left s' a' b' p c d = if (a', b') = (a, b) then gAllows g p c d else left s a' b' p c d := by
  rw [left_eq, left_eq, h.get]
  split <;> rfl

/-- The account a method is about. -/
def Method.grantee : Method → Addr
  | .approve g _ => g
  | .revoke g => g
  | .increase g _ _ _ _ => g
  | .decrease g _ _ _ _ => g

theorem approve_some {c : Chain W} {s s' : St W} {o g : Addr} {as : List Alloc} (h : approve c s o g as = some s') :
    validAllocs as = true ∧ (∀ a ∈ as, c.hasChannel s.world a.port a.chan = true) ∧ Writes s s' o g (some ⟨.transfer as, some (s.now + c.lasts)⟩) ∧
    0 < c.lasts := by
  unfold approve at h
  split at h
  · cases h
  next h1 =>
  split at h
  · cases h
  next h2 =>
  obtain ⟨h3, h4⟩ := saveGrant_some h
  have := h4 _ rfl
  refine ⟨by simpa using h1, ?_, h3, by omega⟩
  simpa using h2

theorem revoke_some {s s' : St W} {o g : Addr} (h : revoke s o g = some s') :
    g ≠ 0 ∧ (∃ x as, live s o g = some x ∧ x.auth = .transfer as) ∧ Writes s s' o g none := by
  unfold revoke at h
  split at h
  · cases h
  next h0 =>
  cases hl : live s o g with
  | none => rw [hl] at h; cases h
  | some x =>
    rw [hl] at h
    dsimp only at h
    cases ha : x.auth with
    | generic => rw [ha] at h; cases h
    | transfer as =>
      rw [ha] at h
      exact ⟨h0, ⟨x, as, rfl, ha⟩, (deleteGrant_some h).1⟩

theorem increase_some {s s' : St W} {o g : Addr} {p c d n : Nat} (h : increase s o g p c d n = some s') :
    g ≠ 0 ∧ ∃ x as a m, live s o g = some x ∧ x.auth = .transfer as ∧ lookup as p c = some a ∧ KV.get a.limit d = some m ∧ m + n ≤ unlimited ∧
      (∀ e, x.expiry = some e → s.now < e) ∧
      Writes s s' o g (some ⟨.transfer (replace as p c (some { a with limit := putCoin a.limit d (m + n) })), x.expiry⟩) := by
  unfold increase at h
  split at h
  · cases h
  next h0 =>
  refine ⟨h0, ?_⟩
  cases hl : live s o g with
  | none => rw [hl] at h; cases h
  | some x =>
    rw [hl] at h
    dsimp only at h
    cases ha : x.auth with
    | generic => rw [ha] at h; cases h
    | transfer as =>
      rw [ha] at h
      dsimp only at h
      cases hk : lookup as p c with
      | none => rw [hk] at h; cases h
      | some a =>
        rw [hk] at h
        dsimp only at h
        cases hm : KV.get a.limit d with
        | none => rw [hm] at h; cases h
        | some m =>
          rw [hm] at h
          dsimp only at h
          rw [top_eq] at h
          split at h
          · cases h
          next h1 =>
          obtain ⟨h3, h4⟩ := saveGrant_some h
          exact ⟨x, as, a, m, rfl, ha, hk, hm, Nat.not_lt.1 h1, h4, h3⟩

theorem decrease_some {s s' : St W} {o g : Addr} {p c d n : Nat} (h : decrease s o g p c d n = some s') :
    g ≠ 0 ∧ ∃ x as a m, live s o g = some x ∧ x.auth = .transfer as ∧ lookup as p c = some a ∧ KV.get a.limit d = some m ∧ n ≤ m ∧
      (∀ e, x.expiry = some e → s.now < e) ∧
      Writes s s' o g (some ⟨.transfer (replace as p c (some { a with limit := putCoin a.limit d (m - n) })), x.expiry⟩) := by
  unfold decrease at h
  split at h
  · cases h
  next h0 =>
  refine ⟨h0, ?_⟩
  cases hl : live s o g with
  | none => rw [hl] at h; cases h
  | some x =>
    rw [hl] at h
    dsimp only at h
    cases ha : x.auth with
    | generic => rw [ha] at h; cases h
    | transfer as =>
      rw [ha] at h
      dsimp only at h
      cases hk : lookup as p c with
      | none => rw [hk] at h; cases h
      | some a =>
        rw [hk] at h
        dsimp only at h
        cases hm : KV.get a.limit d with
        | none => rw [hm] at h; cases h
        | some m =>
          rw [hm] at h
          dsimp only at h
          split at h
          · cases h
          next h1 =>
          obtain ⟨h3, h4⟩ := saveGrant_some h
          exact ⟨x, as, a, m, rfl, ha, hk, hm, Nat.not_lt.1 h1, h4, h3⟩

/-- A call of the four methods, in one form. -/
theorem call_some {c : Chain W} {s s' : St W} {o b : Addr} {m : Method} (hs : Sound s) (h : call c s o m = some s') :
    ∃ g, Writes s s' o m.grantee g ∧ (∀ x as, g = some x → x.auth = .transfer as → WellFormed as) ∧
      ∀ p ch d, gAllows g p ch d + takenBack o m.grantee p ch d (Op.call o b m : Op W)
        ≤ left s o m.grantee p ch d + consent o m.grantee p ch d (Op.call o b m : Op W) := by
  cases m with
  | approve g as =>
    obtain ⟨h1, _, h3, _⟩ := approve_some h
    refine ⟨_, h3, ?_, ?_⟩
    · intro x as' hx ha
      cases hx
      cases ha
      exact valid_wf h1
    · intro p ch d
      show _ ≤ _ + (if o = o ∧ g = g then _ else _)
      rw [if_pos ⟨rfl, rfl⟩]
      exact Nat.le_add_left _ _
  | revoke g =>
    obtain ⟨_, _, h3⟩ := revoke_some h
    exact ⟨_, h3, (fun _ _ hx => nomatch hx), fun p ch d => Nat.zero_le _⟩
  | increase g p c d n =>
    obtain ⟨_, x, as, a, m, hl, ha, hk, hm, hle, _, h3⟩ := increase_some h
    obtain ⟨hg, _⟩ := live_some.1 hl
    have hw := hs.1 _ _ _ hg ha
    refine ⟨_, h3, ?_, ?_⟩
    · intro x' as' hx ha'
      cases hx
      cases ha'
      exact wf_put hw hk d (m + n) hle
    · intro p' c' d'
      show (Auth.transfer _).allows p' c' d' + 0 ≤ left s o g p' c' d' + (if o = o ∧ g = g ∧ p = p' ∧ c = c' ∧ d = d' then n else 0)
      rw [allows_put hw hk hm, left_eq, hg]
      show _ ≤ x.auth.allows p' c' d' + _
      rw [ha]
      by_cases hh : p' = p ∧ c' = c ∧ d' = d
      · obtain ⟨rfl, rfl, rfl⟩ := hh
        rw [if_pos ⟨rfl, rfl, rfl⟩, if_pos ⟨rfl, rfl, rfl, rfl, rfl⟩, allows_of_lookup hk, amountOf_eq hm]
        exact Nat.le_refl _
      · rw [if_neg hh]
        omega
  | decrease g p c d n =>
    obtain ⟨_, x, as, a, m, hl, ha, hk, hm, hle, _, h3⟩ := decrease_some h
    obtain ⟨hg, _⟩ := live_some.1 hl
    have hw := hs.1 _ _ _ hg ha
    have hmm := ((hw.2 a (lookup_mem hk).1).2 _ (KV.mem_of_get hm)).2
    dsimp only at hmm
    refine ⟨_, h3, ?_, ?_⟩
    · intro x' as' hx ha'
      cases hx
      cases ha'
      exact wf_put hw hk d (m - n) (by omega)
    · intro p' c' d'
      show (Auth.transfer _).allows p' c' d' + (if o = o ∧ g = g ∧ p = p' ∧ c = c' ∧ d = d' then n else 0) ≤ left s o g p' c' d' + 0
      rw [allows_put hw hk hm, left_eq, hg]
      show _ ≤ x.auth.allows p' c' d' + _
      rw [ha]
      by_cases hh : p' = p ∧ c' = c ∧ d' = d
      · obtain ⟨rfl, rfl, rfl⟩ := hh
        rw [if_pos ⟨rfl, rfl, rfl⟩, if_pos ⟨rfl, rfl, rfl, rfl, rfl⟩, allows_of_lookup hk, amountOf_eq hm]
        omega
      · rw [if_neg hh, if_neg (fun x => hh ⟨x.2.2.1.symm, x.2.2.2.1.symm, x.2.2.2.2.symm⟩)]
        exact Nat.le_refl _

theorem consent_other {a b : Addr} {p ch d : Nat} {o k : Addr} {m : Method} (h : (a, b) ≠ (o, m.grantee)) :
    consent a b p ch d (Op.call o k m : Op W) = 0 ∧ takenBack a b p ch d (Op.call o k m : Op W) = 0 := by
  cases m with
  | approve g as => exact ⟨if_neg (fun hh => h (by rw [hh.1]; exact congrArg _ hh.2.symm)), rfl⟩
  | revoke g => exact ⟨rfl, rfl⟩
  | increase g p c d n => exact ⟨if_neg (fun hh => h (by rw [hh.1]; exact congrArg _ hh.2.1.symm)), rfl⟩
  | decrease g p c d n => exact ⟨rfl, if_neg (fun hh => h (by rw [hh.1]; exact congrArg _ hh.2.1.symm))⟩

theorem about_call {a b o k : Addr} {m : Method} : about a b (Op.call o k m : Op W) ↔ (a, b) = (o, m.grantee) := by
  have : about a b (Op.call o k m : Op W) ↔ o = a ∧ m.grantee = b := by cases m <;> exact Iff.rfl
  rw [this]
  constructor
  · rintro ⟨rfl, rfl⟩; rfl
  · intro h; cases h; exact ⟨rfl, rfl⟩

theorem enter_some {c : Chain W} {s s' : St W} {o b : Addr} {m : Msg} (h : enter c s o b m = some s') :
    validMsg m = true ∧ c.hasChannel s.world m.port m.chan = true ∧ (b = m.sender ∨ o = m.sender) ∧
    ((b = o ∧ s' = push c s o b m .keep none false) ∨
     (b ≠ o ∧ ∃ g as r, live s o b = some g ∧ g.auth = .transfer as ∧ accept as m = some r ∧ s' = push c s o b m r g.expiry false)) := by
  unfold enter at h
  split at h
  · cases h
  next h1 =>
  split at h
  · cases h
  next h2 =>
  split at h
  · cases h
  next h3 =>
  refine ⟨by simpa using h1, by simpa using h2, ?_, ?_⟩
  · by_cases hb : b = m.sender
    · exact .inl hb
    · exact .inr (Classical.byContradiction (fun ho => h3 ⟨hb, ho⟩))
  split at h
  · next h4 => cases h; exact .inl ⟨h4, rfl⟩
  next h4 =>
  refine .inr ⟨h4, ?_⟩
  cases hl : live s o b with
  | none => rw [hl] at h; cases h
  | some g =>
    rw [hl] at h
    dsimp only at h
    cases ha : g.auth with
    | generic => rw [ha] at h; cases h
    | transfer as =>
      rw [ha] at h
      dsimp only at h
      cases hr : accept as m with
      | none => rw [hr] at h; cases h
      | some r =>
        rw [hr] at h
        cases h
        exact ⟨g, as, r, rfl, ha, hr, rfl⟩

/-- The packet of a transfer. -/
def Frame.packet (c : Chain W) (w : W) (f : Frame) : Sent :=
  ⟨f.signer, f.caller, f.msg.sender, f.msg.port, f.msg.chan, f.msg.name, c.coinOf w f.msg.name, f.msg.amount, f.msg.receiver, f.msg.memo⟩

theorem leave_some {c : Chain W} {s s' : St W} (h : leave c s = some s') :
    ∃ f fs w, s.frames = f :: fs ∧ c.exec s.world f.msg = some w ∧
      settle { s with frames := fs, world := w, log := s.log ++ [f.packet c s.world] } f = some s' := by
  unfold leave at h
  cases hf : s.frames with
  | nil => rw [hf] at h; cases h
  | cons f fs =>
    rw [hf] at h
    dsimp only at h
    cases hx : c.exec s.world f.msg with
    | none => rw [hx] at h; cases h
    | some w =>
      rw [hx] at h
      exact ⟨f, fs, w, rfl, hx, h⟩

theorem settle_some {s s' : St W} {f : Frame} (h : settle s f = some s') :
    (f.after = .keep ∧ s' = s) ∨ (f.after = .delete ∧ Writes s s' f.signer f.caller none) ∨
    (∃ as, f.after = .update as ∧ Writes s s' f.signer f.caller (some ⟨.transfer as, f.expiry⟩)) := by
  unfold settle at h
  cases ha : f.after with
  | keep => rw [ha] at h; cases h; exact .inl ⟨rfl, rfl⟩
  | delete => rw [ha] at h; exact .inr (.inl ⟨rfl, (deleteGrant_some h).1⟩)
  | update as => rw [ha] at h; exact .inr (.inr ⟨as, rfl, (saveGrant_some h).1⟩)

theorem exec_some {c : Chain W} {s s' : St W} {b : Addr} {m : Msg} (h : exec c s b m = some s') :
    validMsg m = true ∧
    ((m.sender = b ∧ s' = push c s b b m .keep none true) ∨
     (m.sender ≠ b ∧ ∃ g, live s m.sender b = some g ∧
       ((g.auth = .generic ∧ s' = push c s m.sender b m .keep none true) ∨
        ∃ as r, g.auth = .transfer as ∧ accept as m = some r ∧
          ((r = .keep ∧ s' = push c s m.sender b m .keep none true) ∨
           ∃ s1 x, Writes s s1 m.sender b x ∧ s' = push c s1 m.sender b m .keep none true ∧
             ((r = .delete ∧ x = none) ∨ ∃ as', r = .update as' ∧ x = some ⟨.transfer as', g.expiry⟩))))) := by
  unfold exec at h
  split at h
  · cases h
  next h1 =>
  refine ⟨by simpa using h1, ?_⟩
  split at h
  · next h2 => cases h; exact .inl ⟨h2, rfl⟩
  next h2 =>
  refine .inr ⟨h2, ?_⟩
  cases hl : live s m.sender b with
  | none => rw [hl] at h; cases h
  | some g =>
    rw [hl] at h
    refine ⟨g, rfl, ?_⟩
    dsimp only at h
    cases ha : g.auth with
    | generic => rw [ha] at h; cases h; exact .inl ⟨rfl, rfl⟩
    | transfer as =>
      rw [ha] at h
      dsimp only at h
      refine .inr ⟨as, ?_⟩
      cases hr : accept as m with
      | none => rw [hr] at h; cases h
      | some r =>
        rw [hr] at h
        refine ⟨r, rfl, rfl, ?_⟩
        cases r with
        | keep => cases h; exact .inl ⟨rfl, rfl⟩
        | delete => cases h; exact .inr ⟨_, none, rfl, rfl, .inl ⟨rfl, rfl⟩⟩
        | update as' => cases h; exact .inr ⟨_, some _, rfl, rfl, .inr ⟨as', rfl, rfl⟩⟩

theorem grant_some {s s' : St W} {a b : Addr} {x : Auth} {e : Option Nat} (h : grant s a b x e = some s') :
    a ≠ b ∧ Writes s s' a b (some ⟨x, e⟩) ∧ ∀ as, x = .transfer as → WellFormed as := by
  unfold grant at h
  split at h
  · cases h
  next h1 =>
  refine ⟨h1, ?_⟩
  cases x with
  | generic => exact ⟨(saveGrant_some h).1, fun _ hh => nomatch hh⟩
  | transfer as =>
    dsimp only at h
    split at h
    · cases h
    next h2 =>
    exact ⟨(saveGrant_some h).1, fun as' hh => by cases hh; exact valid_wf (by simpa using h2)⟩

end Ics
