import Verif.Authority.TransfersLemmas3
/-! # Allowances for IBC transfers: consent, expiry and senders -/
namespace Ics
variable {W : Type}

theorem run_cons {c : Chain W} {s s' : St W} {op : Op W} {ops : List (Op W)} (h : run c s (op :: ops) = some s') :
    ∃ s1, step c s op = some s1 ∧ run c s1 ops = some s' := by
  unfold run at h
  cases hs : step c s op with
  | none => rw [hs] at h; cases h
  | some s1 => rw [hs] at h; exact ⟨s1, rfl, h⟩

theorem run_inv {c : Chain W} (P : St W → Prop) (Q : Op W → Prop) (hstep : ∀ s s' op, P s → Q op → step c s op = some s' → P s') :
    ∀ (ops : List (Op W)) {s s' : St W}, P s → (∀ op ∈ ops, Q op) → run c s ops = some s' → P s' := by
  intro ops
  induction ops with
  | nil => intro s s' hp _ h; cases h; exact hp
  | cons op ops ih =>
    intro s s' hp hq h
    obtain ⟨s1, h1, h2⟩ := run_cons h
    exact ih (hstep s s1 op hp (hq op List.mem_cons_self) h1) (fun x hx => hq x (List.mem_cons_of_mem _ hx)) h2

theorem run_append {c : Chain W} (l1 l2 : List (Op W)) : ∀ {s : St W}, run c s (l1 ++ l2) = (run c s l1).bind (fun s' => run c s' l2) := by
  induction l1 with
  | nil => intro s; rfl
  | cons op l1 ih =>
    intro s
    show (step c s op).bind _ = ((step c s op).bind _).bind _
    cases step c s op with
    | none => rfl
    | some s1 => exact ih

/-- One form for all steps: what becomes of grants, frames and packets. -/
inductive Kind (c : Chain W) (s s' : St W) : Op W → Prop where
  | call (o k : Addr) (m : Method) (g : Option Grant) (hw : Writes s s' o m.grantee g) (h : call c s o m = some s') : Kind c s s' (.call o k m)
  | enter (o k : Addr) (m : Msg) (r : After) (e : Option Nat) (he : s' = push c s o k m r e false) (h : enter c s o k m = some s') :
      Kind c s s' (.enter o k m)
  | leave (f : Frame) (fs : List Frame) (w : W) (hf : s.frames = f :: fs)
      (h : settle { s with frames := fs, world := w, log := s.log ++ [f.packet c s.world] } f = some s') : Kind c s s' .leave
  | grant (a b : Addr) (x : Auth) (e : Option Nat) (hf : s.frames = []) (hw : Writes s s' a b (some ⟨x, e⟩)) : Kind c s s' (.grant a b x e)
  | drop (a b : Addr) (hf : s.frames = []) (hw : Writes s s' a b none) : Kind c s s' (.drop a b)
  | exec (b : Addr) (m : Msg) (hf : s.frames = []) (h : exec c s b m = some s') : Kind c s s' (.exec b m)
  | other (w : W) (he : s' = { s with world := w }) : Kind c s s' (.other w)
  | tick (dt : Nat) (he : s' = { s with now := s.now + dt }) : Kind c s s' (.tick dt)

theorem step_kind {c : Chain W} {s s' : St W} {op : Op W} (h : step c s op = some s') : Kind c s s' op := by
  cases op with
  | call o k m =>
    unfold step at h
    dsimp only at h
    split at h
    · cases m with
      | approve g as => obtain ⟨_, _, h3, _⟩ := approve_some h; exact .call o k _ _ h3 h
      | revoke g => obtain ⟨_, _, h3⟩ := revoke_some h; exact .call o k _ _ h3 h
      | increase g p ch d n => obtain ⟨_, _, _, _, _, _, _, _, _, _, _, h3⟩ := increase_some h; exact .call o k _ _ h3 h
      | decrease g p ch d n => obtain ⟨_, _, _, _, _, _, _, _, _, _, _, h3⟩ := decrease_some h; exact .call o k _ _ h3 h
    · cases h
  | enter o k m =>
    unfold step at h
    dsimp only at h
    split at h
    · obtain ⟨_, _, _, ⟨_, h1⟩ | ⟨_, g, as, r, _, _, _, h1⟩⟩ := enter_some h
      · exact .enter o k m _ _ h1 h
      · exact .enter o k m _ _ h1 h
    · cases h
  | leave => obtain ⟨f, fs, w, hf, _, h2⟩ := leave_some h; exact .leave f fs w hf h2
  | grant a b x e =>
    unfold step at h
    dsimp only at h
    split at h
    · next hf => exact .grant a b x e hf (grant_some h).2.1
    · cases h
  | drop a b =>
    unfold step at h
    dsimp only at h
    split at h
    · next hf => exact .drop a b hf (deleteGrant_some h).1
    · cases h
  | exec b m =>
    unfold step at h
    dsimp only at h
    split at h
    · next hf => exact .exec b m hf h
    · cases h
  | other w =>
    unfold step at h
    dsimp only at h
    split at h
    · cases h; exact .other w rfl
    · cases h
  | tick dt =>
    unfold step at h
    dsimp only at h
    split at h
    · cases h; exact .tick dt rfl
    · cases h

theorem settle_frames {s s' : St W} {f : Frame} (h : settle s f = some s') : s'.frames = s.frames ∧ s'.log = s.log ∧ s'.now = s.now ∧ s'.world = s.world := by
  rcases settle_some h with ⟨_, rfl⟩ | ⟨_, h3⟩ | ⟨as, _, h3⟩
  · exact ⟨rfl, rfl, rfl, rfl⟩
  · exact ⟨h3.frames, h3.log, h3.now, h3.world⟩
  · exact ⟨h3.frames, h3.log, h3.now, h3.world⟩

/-- Packets and transfers under way come from the signer or the caller, and are not empty. -/
def Fair (s : St W) : Prop :=
  (∀ x ∈ s.log, (x.sender = x.signer ∨ x.sender = x.caller) ∧ 0 < x.amount) ∧
  ∀ f ∈ s.frames, (f.msg.sender = f.signer ∨ f.msg.sender = f.caller) ∧ 0 < f.msg.amount

theorem fair_init (w : W) (t : Nat) : Fair (init w t) := by
  unfold Fair init
  exact ⟨(fun _ hx => nomatch hx), (fun _ hx => nomatch hx)⟩

theorem step_leave (c : Chain W) (s : St W) : step c s .leave = leave c s := rfl

theorem validMsg_pos {m : Msg} (h : validMsg m = true) : 0 < m.amount ∧ m.amount ≤ unlimited := by
  have := of_decide_eq_true h
  rw [top_eq] at this
  exact this

theorem fair_step {c : Chain W} {s s' : St W} {op : Op W} (hs : Fair s) (h : step c s op = some s') : Fair s' := by
  have hkind := step_kind h
  clear h
  cases hkind with
  | call o k m g hw _ => exact ⟨by rw [hw.log]; exact hs.1, by rw [hw.frames]; exact hs.2⟩
  | enter o k m r e he h =>
    obtain ⟨h1, _, h3, _⟩ := enter_some h
    subst he
    refine ⟨hs.1, fun f hf => ?_⟩
    rcases List.mem_cons.1 hf with hh | hh
    · rw [hh]
      exact ⟨h3.elim (fun x => .inr x.symm) (fun x => .inl x.symm), (validMsg_pos h1).1⟩
    · exact hs.2 f hh
  | leave f fs w hf h2 =>
    obtain ⟨e1, e2, _⟩ := settle_frames h2
    refine ⟨?_, ?_⟩
    · rw [e2]
      intro x hx
      rcases List.mem_append.1 hx with hh | hh
      · exact hs.1 x hh
      · rw [List.mem_singleton.1 hh]
        exact hs.2 f (by rw [hf]; exact List.mem_cons_self)
    · rw [e1]
      exact fun x hx => hs.2 x (by rw [hf]; exact List.mem_cons_of_mem _ hx)
  | grant a b x e hf hw => exact ⟨by rw [hw.log]; exact hs.1, by rw [hw.frames]; exact hs.2⟩
  | drop a b hf hw => exact ⟨by rw [hw.log]; exact hs.1, by rw [hw.frames]; exact hs.2⟩
  | exec b m hf h =>
    have key : ∀ (s1 : St W) (o : Addr), s1.log = s.log → s1.frames = s.frames → (m.sender = o ∨ m.sender = b) → 0 < m.amount →
        Fair (push c s1 o b m .keep none true) := by
      intro s1 o h1 h2 h3 h4
      refine ⟨by show ∀ x ∈ s1.log, _; rw [h1]; exact hs.1, fun f hf => ?_⟩
      rcases List.mem_cons.1 hf with hh | hh
      · rw [hh]; exact ⟨h3, h4⟩
      · rw [h2] at hh; exact hs.2 f hh
    obtain ⟨hv, ⟨h1, rfl⟩ | ⟨_, g, hl, ⟨_, rfl⟩ | ⟨as, r, ha, hr, ⟨_, rfl⟩ | ⟨s1, x, hw1, rfl, hx⟩⟩⟩⟩ := exec_some h
    · exact key s b rfl rfl (.inl h1) (validMsg_pos hv).1
    · exact key s _ rfl rfl (.inl rfl) (validMsg_pos hv).1
    · exact key s _ rfl rfl (.inl rfl) (validMsg_pos hv).1
    · exact key s1 _ hw1.log hw1.frames (.inl rfl) (validMsg_pos hv).1
  | other w he => subst he; exact hs
  | tick dt he => subst he; exact hs

/-- Without grant and without transfer under way. -/
def Without (a b : Addr) (l : List Sent) (s : St W) : Prop :=
  KV.get s.grants (a, b) = none ∧ (∀ f ∈ s.frames, ¬ (f.signer = a ∧ f.caller = b)) ∧
  s.log.filter (fun x => decide (x.signer = a ∧ x.caller = b)) = l

theorem without_writes {a b : Addr} {l : List Sent} {s s' : St W} {o g : Addr} {x : Option Grant} (hp : Without a b l s)
    (h : Writes s s' o g x) (hne : x = none ∨ (a, b) ≠ (o, g)) : Without a b l s' := by
  refine ⟨?_, by rw [h.frames]; exact hp.2.1, by rw [h.log]; exact hp.2.2⟩
  rw [h.get]
  split
  · next hk => exact hne.elim id (fun hh => absurd hk hh)
  · exact hp.1

theorem without_step {c : Chain W} {a b : Addr} (hab : a ≠ b) {l : List Sent} {s s' : St W} {op : Op W} (hp : Without a b l s)
    (hq : ¬ gives a b op) (h : step c s op = some s') : Without a b l s' := by
  have hkind := step_kind h
  clear h
  cases hkind with
  | call o k m g hw h =>
    refine without_writes hp hw ?_
    by_cases hk : (a, b) = (o, m.grantee)
    · left
      cases m with
      | approve g as => cases hk; exact absurd ⟨rfl, rfl⟩ hq
      | revoke g0 =>
        obtain ⟨_, ⟨x, as, hl, _⟩, _⟩ := revoke_some h
        have := (live_some.1 hl).1
        cases hk
        exact absurd (this.symm.trans hp.1) (fun hh => nomatch hh)
      | increase g0 p ch d n =>
        obtain ⟨_, x, _, _, _, hl, _⟩ := increase_some h
        have := (live_some.1 hl).1
        cases hk
        exact absurd (this.symm.trans hp.1) (fun hh => nomatch hh)
      | decrease g0 p ch d n =>
        obtain ⟨_, x, _, _, _, hl, _⟩ := decrease_some h
        have := (live_some.1 hl).1
        cases hk
        exact absurd (this.symm.trans hp.1) (fun hh => nomatch hh)
    · exact .inr hk
  | enter o k m r e he h =>
    obtain ⟨_, _, _, hh⟩ := enter_some h
    subst he
    refine ⟨hp.1, fun f hf hm => ?_, hp.2.2⟩
    rcases List.mem_cons.1 hf with hf | hf
    · rw [hf] at hm
      obtain ⟨h1, h2⟩ := hm
      dsimp only at h1 h2
      subst h1 h2
      rcases hh with ⟨h3, _⟩ | ⟨_, g, _, _, hl, _⟩
      · exact hab h3.symm
      · have := (live_some.1 hl).1
        rw [hp.1] at this
        cases this
    · exact hp.2.1 f hf hm
  | leave f fs w hf h2 =>
    have hnf := hp.2.1 f (by rw [hf]; exact List.mem_cons_self)
    have hp1 : Without a b l { s with frames := fs, world := w, log := s.log ++ [f.packet c s.world] } := by
      refine ⟨hp.1, fun x hx => hp.2.1 x (by rw [hf]; exact List.mem_cons_of_mem _ hx), ?_⟩
      show (s.log ++ [f.packet c s.world]).filter _ = l
      rw [List.filter_append, hp.2.2, List.filter_cons_of_neg (p := fun x : Sent => decide (x.signer = a ∧ x.caller = b)) (a := f.packet c s.world) (fun hh => hnf (of_decide_eq_true hh))]
      exact List.append_nil _
    rcases settle_some h2 with ⟨_, rfl⟩ | ⟨_, h3⟩ | ⟨as, _, h3⟩
    · exact hp1
    · exact without_writes hp1 h3 (.inl rfl)
    · exact without_writes hp1 h3 (.inr (fun hk => hnf (by cases hk; exact ⟨rfl, rfl⟩)))
  | grant a' b' x e hf hw =>
    exact without_writes hp hw (.inr (fun hk => hq (by cases hk; exact ⟨rfl, rfl⟩)))
  | drop a' b' hf hw => exact without_writes hp hw (.inl rfl)
  | exec k m hf h =>
    have key : ∀ (s1 : St W) (o : Addr), Without a b l s1 → s1.frames = [] → ¬ (o = a ∧ k = b) → Without a b l (push c s1 o k m .keep none true) := by
      intro s1 o h1 h2 h3
      refine ⟨h1.1, fun f hf hm => ?_, h1.2.2⟩
      rcases List.mem_cons.1 hf with hf | hf
      · rw [hf] at hm; exact h3 hm
      · rw [h2] at hf; cases hf
    have hng : ∀ g, live s m.sender k = some g → ¬ (m.sender = a ∧ k = b) := by
      rintro g hl ⟨rfl, rfl⟩
      have := (live_some.1 hl).1
      rw [hp.1] at this
      cases this
    obtain ⟨_, ⟨_, rfl⟩ | ⟨_, g, hl, ⟨_, rfl⟩ | ⟨as, r, ha, hr, ⟨_, rfl⟩ | ⟨s1, x, hw1, rfl, hx⟩⟩⟩⟩ := exec_some h
    · exact key s k hp hf (fun hh => hab (hh.1.symm.trans hh.2))
    · exact key s _ hp hf (hng g hl)
    · exact key s _ hp hf (hng g hl)
    · exact key s1 _ (without_writes hp hw1 (.inr (fun hk => hng g hl (by cases hk; exact ⟨rfl, rfl⟩)))) (hw1.frames.trans hf) (hng g hl)
  | other w he => subst he; exact hp
  | tick dt he => subst he; exact hp

/-- Whatever is stored, or about to be, for the pair ends by `E`. -/
def Ends (a b : Addr) (E : Nat) (s : St W) : Prop :=
  (∀ g, KV.get s.grants (a, b) = some g → ∃ e, g.expiry = some e ∧ e ≤ E) ∧
  ∀ f ∈ s.frames, f.signer = a → f.caller = b → ∀ as, f.after = .update as → ∃ e, f.expiry = some e ∧ e ≤ E

theorem ends_writes {a b : Addr} {E : Nat} {s s' : St W} {o g : Addr} {x : Option Grant} (hp : Ends a b E s) (h : Writes s s' o g x)
    (hx : (a, b) = (o, g) → ∀ y, x = some y → ∃ e, y.expiry = some e ∧ e ≤ E) : Ends a b E s' := by
  refine ⟨fun y hy => ?_, by rw [h.frames]; exact hp.2⟩
  rw [h.get] at hy
  split at hy
  · next hk => exact hx hk y hy
  · exact hp.1 y hy

theorem ends_push {c : Chain W} {a b : Addr} {E : Nat} {s : St W} {o k : Addr} {m : Msg} {r : After} {e : Option Nat} {q : Bool} (hp : Ends a b E s)
    (hx : o = a → k = b → ∀ as, r = .update as → ∃ e', e = some e' ∧ e' ≤ E) : Ends a b E (push c s o k m r e q) := by
  refine ⟨hp.1, fun f hf h1 h2 as ha => ?_⟩
  rcases List.mem_cons.1 hf with hf | hf
  · rw [hf] at h1 h2 ha ⊢; exact hx h1 h2 as ha
  · exact hp.2 f hf h1 h2 as ha

theorem ends_step {c : Chain W} {a b : Addr} {E : Nat} {s s' : St W} {op : Op W} (hp : Ends a b E s) (hq : ¬ gives a b op)
    (h : step c s op = some s') : Ends a b E s' := by
  have hkind := step_kind h
  clear h
  cases hkind with
  | call o k m g hw h =>
    cases m with
    | approve g0 as =>
      refine ends_writes hp hw (fun hk => ?_)
      cases hk
      exact absurd ⟨rfl, rfl⟩ hq
    | revoke g0 =>
      obtain ⟨_, _, h3⟩ := revoke_some h
      exact ends_writes hp h3 (fun _ _ hh => nomatch hh)
    | increase g0 p ch d n =>
      obtain ⟨_, x, _, _, _, hl, _, _, _, _, _, h3⟩ := increase_some h
      refine ends_writes hp h3 (fun hk y hy => ?_)
      cases hk
      cases hy
      exact hp.1 x (live_some.1 hl).1
    | decrease g0 p ch d n =>
      obtain ⟨_, x, _, _, _, hl, _, _, _, _, _, h3⟩ := decrease_some h
      refine ends_writes hp h3 (fun hk y hy => ?_)
      cases hk
      cases hy
      exact hp.1 x (live_some.1 hl).1
  | enter o k m r e he h =>
    obtain ⟨_, _, _, ⟨_, rfl⟩ | ⟨_, g, as, r', hl, ha, hr, rfl⟩⟩ := enter_some h
    · exact ends_push hp (fun _ _ _ hh => nomatch hh)
    · refine ends_push hp ?_
      rintro rfl rfl _ _
      exact hp.1 g (live_some.1 hl).1
  | leave f fs w hf h2 =>
    have hmem : f ∈ s.frames := by rw [hf]; exact List.mem_cons_self
    have hp1 : Ends a b E { s with frames := fs, world := w, log := s.log ++ [f.packet c s.world] } :=
      ⟨hp.1, fun x hx => hp.2 x (by rw [hf]; exact List.mem_cons_of_mem _ hx)⟩
    rcases settle_some h2 with ⟨_, rfl⟩ | ⟨_, h3⟩ | ⟨as, ha, h3⟩
    · exact hp1
    · exact ends_writes hp1 h3 (fun _ _ hh => nomatch hh)
    · refine ends_writes hp1 h3 (fun hk y hy => ?_)
      cases hk
      cases hy
      exact hp.2 f hmem rfl rfl as ha
  | grant a' b' x e hf hw =>
    refine ends_writes hp hw (fun hk => ?_)
    cases hk
    exact absurd ⟨rfl, rfl⟩ hq
  | drop a' b' hf hw => exact ends_writes hp hw (fun _ _ hh => nomatch hh)
  | exec k m hf h =>
    obtain ⟨_, ⟨_, rfl⟩ | ⟨_, g, hl, ⟨_, rfl⟩ | ⟨as, r, ha, hr, ⟨_, rfl⟩ | ⟨s1, x, hw1, rfl, hx⟩⟩⟩⟩ := exec_some h
    · exact ends_push hp (fun _ _ _ hh => nomatch hh)
    · exact ends_push hp (fun _ _ _ hh => nomatch hh)
    · exact ends_push hp (fun _ _ _ hh => nomatch hh)
    · refine ends_push (ends_writes hp hw1 (fun hk y hy => ?_)) (fun _ _ _ hh => nomatch hh)
      rcases hx with ⟨_, rfl⟩ | ⟨_, _, rfl⟩
      · cases hy
      · cases hy
        cases hk
        exact hp.1 g (live_some.1 hl).1
  | other w he => subst he; exact hp
  | tick dt he => subst he; exact hp

theorem ended_enter {c : Chain W} {a b : Addr} {E : Nat} (hab : a ≠ b) {s : St W} (hp : Ends a b E s) (hE : E < s.now) (m : Msg) :
    step c s (.enter a b m) = none ∧ (m.sender = a → step c s (.exec b m) = none) := by
  have hno : ∀ g, live s a b = some g → False := by
    intro g hl
    obtain ⟨h1, h2⟩ := live_some.1 hl
    obtain ⟨e, he, hle⟩ := hp.1 g h1
    have := h2 e he
    omega
  constructor
  · cases h : step c s (.enter a b m) with
    | none => rfl
    | some s' =>
      exfalso
      have hkind := step_kind h
      clear h
      cases hkind with
      | enter _ _ _ r e he h =>
        obtain ⟨_, _, _, ⟨h3, _⟩ | ⟨_, g, _, _, hl, _⟩⟩ := enter_some h
        · exact hab h3.symm
        · exact hno g hl
  · intro hs
    cases h : step c s (.exec b m) with
    | none => rfl
    | some s' =>
      exfalso
      have hkind := step_kind h
      clear h
      cases hkind with
      | exec _ _ hf h =>
        obtain ⟨_, ⟨h1, _⟩ | ⟨_, g, hl, _⟩⟩ := exec_some h
        · exact hab (hs.symm.trans h1)
        · rw [hs] at hl; exact hno g hl

/-- When no transfer runs the code of a token, nothing comes between the two halves of a transfer. -/
theorem undisturbed_of_no_code {c : Chain W} (hc : ∀ w m, c.converts w m = false) (a b : Addr) (ops : List (Op W)) :
    ∀ {s s' : St W}, (∀ f ∈ s.frames, f.runs = false) → run c s ops = some s' → Undisturbed c a b s ops := by
  induction ops with
  | nil => intros; exact trivial
  | cons op ops ih =>
    intro s s' hr h
    obtain ⟨s1, h1, h2⟩ := run_cons h
    clear h
    have hr1 : ∀ f ∈ s1.frames, f.runs = false := by
      have hkind := step_kind h1
      cases hkind with
      | call o k m g hw _ => rw [hw.frames]; exact hr
      | enter o k m r e he _ =>
        subst he
        intro f hf
        rcases List.mem_cons.1 hf with hf | hf
        · rw [hf]; exact hc _ _
        · exact hr f hf
      | leave f fs w hf hset =>
        rw [(settle_frames hset).1]
        exact fun x hx => hr x (by rw [hf]; exact List.mem_cons_of_mem _ hx)
      | grant a b x e hf hw => rw [hw.frames]; exact hr
      | drop a b hf hw => rw [hw.frames]; exact hr
      | exec k m hf h =>
        have key : ∀ (s1 : St W) (o : Addr), s1.frames = [] → ∀ f ∈ (push c s1 o k m .keep none true).frames, f.runs = false := by
          intro s1 o h1 f hf
          rcases List.mem_cons.1 hf with hf | hf
          · rw [hf]; exact hc _ _
          · rw [h1] at hf; cases hf
        obtain ⟨_, ⟨_, rfl⟩ | ⟨_, g, hl, ⟨_, rfl⟩ | ⟨as, r, ha, hr, ⟨_, rfl⟩ | ⟨s1, x, hw1, rfl, hx⟩⟩⟩⟩ := exec_some h
        · exact key _ _ hf
        · exact key _ _ hf
        · exact key _ _ hf
        · exact key _ _ (hw1.frames.trans hf)
      | other w he => subst he; exact hr
      | tick dt he => subst he; exact hr
    refine ⟨fun ⟨f, hf, _⟩ hab => ?_, fun s2 hs2 => ?_⟩
    · -- a transfer is under way, so only its end can succeed
      have hmay : ∀ o, mayCall s o = false := by
        intro o
        unfold mayCall
        cases hfr : s.frames with
        | nil => rw [hfr] at hf; cases hf
        | cons f' fs =>
          dsimp only
          rw [hr f' (by rw [hfr]; exact List.mem_cons_self)]
          rfl
      have hne : s.frames ≠ [] := fun hh => by rw [hh] at hf; cases hf
      cases op with
      | call o k m => unfold step at h1; dsimp only at h1; rw [hmay] at h1; cases h1
      | enter o k m => unfold step at h1; dsimp only at h1; rw [hmay] at h1; cases h1
      | leave => exact hab
      | grant o g x e => unfold step at h1; dsimp only at h1; rw [if_neg hne] at h1; cases h1
      | drop o g => unfold step at h1; dsimp only at h1; rw [if_neg hne] at h1; cases h1
      | exec k m => exact hab
      | other w => exact hab
      | tick dt => exact hab
    · rw [h1] at hs2
      cases hs2
      exact ih hr1 h2

end Ics
