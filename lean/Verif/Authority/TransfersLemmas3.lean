import Verif.Authority.TransfersLemmas2
/-! # Allowances for IBC transfers: the invariants -/
namespace Ics
variable {W : Type}

/-- A frame of the pair, made through the contract. -/
def Frame.mine (f : Frame) (a b : Addr) : Prop := f.signer = a ∧ f.caller = b ∧ f.paid = false

/-- What has been charged but not sent yet. -/
def pend (a b : Addr) (p c d : Nat) : List Frame → Nat
  | [] => 0
  | f :: fs => (if f.paid = true ∧ f.signer = a ∧ f.caller = b ∧ f.msg.port = p ∧ f.msg.chan = c ∧ f.msg.name = d then f.msg.amount else 0)
      + pend a b p c d fs

theorem sentFor_append (a b : Addr) (p c d : Nat) (l1 l2 : List Sent) :
    sentFor a b p c d (l1 ++ l2) = sentFor a b p c d l1 + sentFor a b p c d l2 := by
  induction l1 with
  | nil => exact (Nat.zero_add _).symm
  | cons x l1 ih =>
    show _ + sentFor a b p c d (l1 ++ l2) = _ + _ + _
    rw [ih, Nat.add_assoc]

theorem sound_writes {s s' : St W} {a b : Addr} {g : Option Grant} (hs : Sound s) (h : Writes s s' a b g)
    (hg : ∀ x as, g = some x → x.auth = .transfer as → WellFormed as) : Sound s' := by
  constructor
  · intro k x as hx ha
    rw [h.get] at hx
    split at hx
    · exact hg x as hx ha
    · exact hs.1 k x as hx ha
  · rw [h.frames]; exact hs.2

theorem sound_push {c : Chain W} {s : St W} {o b : Addr} {m : Msg} {r : After} {e : Option Nat} {q : Bool} (hs : Sound s)
    (hr : ∀ as, r = .update as → WellFormed as) : Sound (push c s o b m r e q) := by
  refine ⟨hs.1, fun f hf as ha => ?_⟩
  rcases List.mem_cons.1 hf with h | h
  · rw [h] at ha; exact hr as ha
  · exact hs.2 f h as ha

theorem accept_wf {as : List Alloc} (hw : WellFormed as) {m : Msg} {r : After} (h : accept as m = some r) :
    ∀ as', r = .update as' → WellFormed as' := by
  obtain ⟨_, _, _, h | h⟩ := accept_some hw h
  · intro as' h'; rw [h.2] at h'; cases h'
  · exact h.2.2.2.1

theorem sound_init (w : W) (now : Nat) : Sound (init w now) :=
  ⟨(fun _ _ _ h => nomatch h), (fun _ h => nomatch h)⟩

theorem sound_step {c : Chain W} {s s' : St W} {op : Op W} (hs : Sound s) (h : step c s op = some s') : Sound s' := by
  cases op with
  | call o b m =>
    unfold step at h
    dsimp only at h
    split at h
    · obtain ⟨g, h1, h2, _⟩ := call_some (b := b) hs h
      exact sound_writes hs h1 h2
    · cases h
  | enter o b m =>
    unfold step at h
    dsimp only at h
    split at h
    · obtain ⟨_, _, _, ⟨_, rfl⟩ | ⟨_, g, as, r, hl, ha, hr, rfl⟩⟩ := enter_some h
      · exact sound_push hs (fun _ hh => nomatch hh)
      · exact sound_push hs (accept_wf (hs.1 _ _ _ (live_some.1 hl).1 ha) hr)
    · cases h
  | leave =>
    obtain ⟨f, fs, w, hf, _, h2⟩ := leave_some h
    have hs1 : Sound { s with frames := fs, world := w, log := s.log ++ [f.packet c s.world] } :=
      ⟨hs.1, fun x hx => hs.2 x (by rw [hf]; exact List.mem_cons_of_mem _ hx)⟩
    rcases settle_some h2 with ⟨_, rfl⟩ | ⟨_, h3⟩ | ⟨as, ha, h3⟩
    · exact hs1
    · exact sound_writes hs1 h3 (fun _ _ hh => nomatch hh)
    · refine sound_writes hs1 h3 (fun x as' hx hxa => ?_)
      cases hx
      cases hxa
      exact hs.2 f (by rw [hf]; exact List.mem_cons_self) _ ha
  | grant a b x e =>
    unfold step at h
    dsimp only at h
    split at h
    · obtain ⟨_, h1, h2⟩ := grant_some h
      refine sound_writes hs h1 (fun y as hy ha => ?_)
      cases hy
      exact h2 as ha
    · cases h
  | drop a b =>
    unfold step at h
    dsimp only at h
    split at h
    · exact sound_writes (g := none) hs (deleteGrant_some h).1 (fun _ _ hh => nomatch hh)
    · cases h
  | exec b m =>
    unfold step at h
    dsimp only at h
    split at h
    · obtain ⟨_, ⟨_, rfl⟩ | ⟨_, g, hl, ⟨_, rfl⟩ | ⟨as, r, ha, hr, ⟨_, rfl⟩ | ⟨s1, x, hw1, rfl, hx⟩⟩⟩⟩ := exec_some h
      · exact sound_push hs (fun _ hh => nomatch hh)
      · exact sound_push hs (fun _ hh => nomatch hh)
      · exact sound_push hs (fun _ hh => nomatch hh)
      · refine sound_push (sound_writes hs hw1 (fun y as' hy hya => ?_)) (fun _ hh => nomatch hh)
        rcases hx with ⟨_, rfl⟩ | ⟨as2, hr2, rfl⟩
        · cases hy
        · cases hy
          cases hya
          exact accept_wf (hs.1 _ _ _ (live_some.1 hl).1 ha) hr _ hr2
    · cases h
  | other w =>
    unfold step at h
    dsimp only at h
    split at h
    · cases h; exact hs
    · cases h
  | tick dt =>
    unfold step at h
    dsimp only at h
    split at h
    · cases h; exact hs
    · cases h

/-- The account of a pair: what was sent, what is left, what is charged, what was taken back, and what was consented to. -/
structure Acct (a b : Addr) (p ch d T K : Nat) (s : St W) : Prop where
  sound : Sound s
  held : ∀ f ∈ s.frames, f.mine a b → ∃ g as, KV.get s.grants (a, b) = some g ∧ g.auth = .transfer as ∧ accept as f.msg = some f.after
  single : s.frames.Pairwise (fun f f' => f.mine a b → ¬ f'.mine a b)
  paid : ∀ f ∈ s.frames, f.paid = true → f.after = .keep
  bound : sentFor a b p ch d s.log + left s a b p ch d + pend a b p ch d s.frames + T ≤ K

theorem not_busy {s : St W} {a b : Addr} (h : ¬ Busy s a b) : ∀ f ∈ s.frames, ¬ f.mine a b :=
  fun f hf hm => h ⟨f, hf, hm.1, hm.2.1, hm.2.2⟩

/-- Writing a grant of the pair itself while none of its transfers is under way, or a grant of another pair. -/
theorem Acct.writes {a b : Addr} {p ch d T K T' K' : Nat} {s s' : St W} {o g : Addr} {x : Option Grant} (hI : Acct a b p ch d T K s)
    (h : Writes s s' o g x) (hg : ∀ y as, x = some y → y.auth = .transfer as → WellFormed as) (hq : (a, b) = (o, g) → ¬ Busy s a b)
    (hb : left s' a b p ch d + T' + K ≤ left s a b p ch d + T + K') : Acct a b p ch d T' K' s' := by
  refine ⟨sound_writes hI.sound h hg, ?_, ?_, ?_, ?_⟩
  · rw [h.frames]
    intro f hf hm
    by_cases hk : (a, b) = (o, g)
    · exact absurd hm (not_busy (hq hk) f hf)
    · rw [h.get, if_neg hk]
      exact hI.held f hf hm
  · rw [h.frames]; exact hI.single
  · rw [h.frames]; exact hI.paid
  · rw [h.frames, h.log]
    have := hI.bound
    omega

theorem left_lt {a b : Addr} {p ch d T K : Nat} {s : St W} (hI : Acct a b p ch d T K s) (hK : K < unlimited) : left s a b p ch d < unlimited := by
  have := hI.bound
  omega

theorem Acct.call {c : Chain W} {a b : Addr} {p ch d T K : Nat} {s s' : St W} {o k : Addr} {m : Method} (hI : Acct a b p ch d T K s)
    (h : step c s (.call o k m) = some s') (hq : Busy s a b → ¬ about a b (Op.call o k m : Op W)) :
    Acct a b p ch d (T + takenBack a b p ch d (Op.call o k m : Op W)) (K + consent a b p ch d (Op.call o k m : Op W)) s' := by
  unfold step at h
  dsimp only at h
  split at h
  · obtain ⟨g, h1, h2, h3⟩ := call_some (b := k) hI.sound h
    refine hI.writes h1 h2 (fun hk hbusy => hq hbusy (about_call.2 hk)) ?_
    rw [h1.left]
    by_cases hk : (a, b) = (o, m.grantee)
    · rw [if_pos hk]
      cases hk
      have := h3 p ch d
      omega
    · rw [if_neg hk]
      obtain ⟨e1, e2⟩ := consent_other (W := W) (p := p) (ch := ch) (d := d) (k := k) hk
      rw [e1, e2]
      omega
  · cases h

theorem Acct.enter {c : Chain W} {a b : Addr} {p ch d T K : Nat} {s s' : St W} {o k : Addr} {m : Msg} (hab : a ≠ b) (hI : Acct a b p ch d T K s)
    (h : step c s (.enter o k m) = some s') (hq : Busy s a b → ¬ about a b (Op.enter o k m : Op W)) : Acct a b p ch d T K s' := by
  have hsound := sound_step hI.sound h
  unfold step at h
  dsimp only at h
  split at h
  · have hnew : ∃ r e, s' = push c s o k m r e false ∧ ((o = a ∧ k = b) → ∃ g as, KV.get s.grants (a, b) = some g ∧ g.auth = .transfer as ∧ accept as m = some r) := by
      obtain ⟨_, _, _, ⟨hko, rfl⟩ | ⟨_, g, as, r, hl, ha, hr, rfl⟩⟩ := enter_some h
      · exact ⟨_, _, rfl, fun hh => absurd (hh.1.symm.trans (hko.symm.trans hh.2)) hab⟩
      · refine ⟨_, _, rfl, ?_⟩
        rintro ⟨rfl, rfl⟩
        exact ⟨g, as, (live_some.1 hl).1, ha, hr⟩
    obtain ⟨r, e, rfl, hheld⟩ := hnew
    refine ⟨hsound, ?_, ?_, ?_, ?_⟩
    · intro f hf hm
      rcases List.mem_cons.1 hf with hh | hh
      · rw [hh] at hm ⊢
        exact hheld ⟨hm.1, hm.2.1⟩
      · exact hI.held f hh hm
    · refine List.pairwise_cons.2 ⟨fun f' hf' hm hm' => ?_, hI.single⟩
      exact hq ⟨f', hf', hm'.1, hm'.2.1, hm'.2.2⟩ ⟨hm.1, hm.2.1⟩
    · intro f hf hp
      rcases List.mem_cons.1 hf with hh | hh
      · rw [hh] at hp; cases hp
      · exact hI.paid f hh hp
    · have := hI.bound
      show _ + _ + (_ + pend a b p ch d s.frames) + _ ≤ _
      rw [if_neg (fun hh => nomatch hh.1), Nat.zero_add]
      exact this
  · cases h

theorem sentFor_packet (a b : Addr) (p ch d : Nat) (c : Chain W) (w : W) (f : Frame) :
    sentFor a b p ch d [f.packet c w]
      = if f.signer = a ∧ f.caller = b ∧ f.msg.port = p ∧ f.msg.chan = ch ∧ f.msg.name = d then f.msg.amount else 0 := Nat.add_zero _

theorem Acct.leave {c : Chain W} {a b : Addr} {p ch d T K : Nat} {s s' : St W} (hK : K < unlimited) (hI : Acct a b p ch d T K s)
    (h : step c s .leave = some s') : Acct a b p ch d T K s' := by
  have hsound := sound_step hI.sound h
  obtain ⟨f, fs, w, hf, _, h2⟩ := leave_some h
  have hmem : f ∈ s.frames := by rw [hf]; exact List.mem_cons_self
  have hsub : ∀ x ∈ fs, x ∈ s.frames := fun x hx => by rw [hf]; exact List.mem_cons_of_mem _ hx
  have hsingle := hI.single
  rw [hf, List.pairwise_cons] at hsingle
  have hbound := hI.bound
  rw [hf] at hbound
  have hpend : pend a b p ch d (f :: fs)
    = (if f.paid = true ∧ f.signer = a ∧ f.caller = b ∧ f.msg.port = p ∧ f.msg.chan = ch ∧ f.msg.name = d then f.msg.amount else 0)
      + pend a b p ch d fs := rfl
  rw [hpend] at hbound
  -- what is written, and what becomes of the limit
  obtain ⟨x, hwr⟩ : ∃ x : Option (Option Grant), (match x with
      | none => s' = { s with frames := fs, world := w, log := s.log ++ [f.packet c s.world] } ∧ f.after = .keep
      | some g => Writes { s with frames := fs, world := w, log := s.log ++ [f.packet c s.world] } s' f.signer f.caller g ∧
          (f.after = .delete ∧ g = none ∨ ∃ as, f.after = .update as ∧ g = some ⟨.transfer as, f.expiry⟩)) := by
    rcases settle_some h2 with ⟨h3, rfl⟩ | ⟨h3, h4⟩ | ⟨as, h3, h4⟩
    · exact ⟨none, rfl, h3⟩
    · exact ⟨some none, h4, .inl ⟨h3, rfl⟩⟩
    · exact ⟨some (some _), h4, .inr ⟨as, h3, rfl⟩⟩
  have hframes : s'.frames = fs := by
    cases x with
    | none => rw [hwr.1]
    | some g => rw [hwr.1.frames]
  have hlog : s'.log = s.log ++ [f.packet c s.world] := by
    cases x with
    | none => rw [hwr.1]
    | some g => rw [hwr.1.log]
  have hother : ¬ (f.signer = a ∧ f.caller = b) → KV.get s'.grants (a, b) = KV.get s.grants (a, b) := by
    intro hne
    cases x with
    | none => rw [hwr.1]
    | some g => rw [hwr.1.get, if_neg (fun hk => hne (by cases hk; exact ⟨rfl, rfl⟩))]
  have hpaid : f.paid = true → KV.get s'.grants (a, b) = KV.get s.grants (a, b) := by
    intro hp
    have hkeep := hI.paid f hmem hp
    cases x with
    | none => rw [hwr.1]
    | some g =>
      rcases hwr.2 with ⟨h3, _⟩ | ⟨as, h3, _⟩
      · rw [hkeep] at h3; cases h3
      · rw [hkeep] at h3; cases h3
  have hlr : sentFor a b p ch d (s.log ++ [f.packet c s.world]) = sentFor a b p ch d s.log
      + (if f.signer = a ∧ f.caller = b ∧ f.msg.port = p ∧ f.msg.chan = ch ∧ f.msg.name = d then f.msg.amount else 0) := by
    rw [sentFor_append, sentFor_packet]
  by_cases hm : f.mine a b
  · -- a transfer of the pair
    obtain ⟨g0, as, hg0, ha0, hacc⟩ := hI.held f hmem hm
    have hrest : ∀ f' ∈ fs, ¬ f'.mine a b := fun f' hf' => hsingle.1 f' hf' hm
    refine ⟨hsound, ?_, ?_, ?_, ?_⟩
    · rw [hframes]; exact fun f' hf' hm' => absurd hm' (hrest f' hf')
    · rw [hframes]; exact hsingle.2
    · rw [hframes]; exact fun f' hf' => hI.paid f' (hsub f' hf')
    · rw [hframes, hlog, hlr]
      have hwf := hI.sound.1 _ _ _ hg0 ha0
      have hleft : left s a b p ch d = (Auth.transfer as).allows p ch d := by
        rw [left_eq, hg0]
        show g0.auth.allows p ch d = _
        rw [ha0]
      rw [if_neg (fun hh => by rw [hm.2.2] at hh; cases hh.1)] at hbound
      obtain ⟨al, hal, _, ⟨hun, hkeep⟩ | ⟨_, _, hnk, _, hafter⟩⟩ := accept_some hwf hacc
      · have hgr : s' = { s with frames := fs, world := w, log := s.log ++ [f.packet c s.world] } := by
          cases x with
          | none => exact hwr.1
          | some g =>
            rcases hwr.2 with ⟨h3, _⟩ | ⟨as, h3, _⟩
            · rw [hkeep] at h3; cases h3
            · rw [hkeep] at h3; cases h3
        have hl' : left s' a b p ch d = left s a b p ch d := by rw [hgr]; rfl
        rw [hl']
        by_cases hh : f.signer = a ∧ f.caller = b ∧ f.msg.port = p ∧ f.msg.chan = ch ∧ f.msg.name = d
        · exfalso
          have := left_lt hI hK
          rw [hleft, ← hh.2.2.1, ← hh.2.2.2.1, ← hh.2.2.2.2, allows_of_lookup hal, hun] at this
          exact Nat.lt_irrefl _ this
        · rw [if_neg hh]; omega
      · have hl' : left s' a b p ch d = f.after.allows as p ch d := by
          cases x with
          | none => exact absurd hwr.2 hnk
          | some g =>
            rw [hwr.1.left, if_pos (by rw [hm.1, hm.2.1])]
            rcases hwr.2 with ⟨h3, h4⟩ | ⟨as, h3, h4⟩
            · rw [h3, h4]; rfl
            · rw [h3, h4]; rfl
        have := hafter p ch d
        rw [hl']
        rw [hleft, ← this] at hbound
        by_cases hh : p = f.msg.port ∧ ch = f.msg.chan ∧ d = f.msg.name
        · rw [if_pos ⟨hm.1, hm.2.1, hh.1.symm, hh.2.1.symm, hh.2.2.symm⟩]
          rw [if_pos hh] at hbound
          omega
        · rw [if_neg (fun x => hh ⟨x.2.2.1.symm, x.2.2.2.1.symm, x.2.2.2.2.symm⟩)]
          rw [if_neg hh] at hbound
          omega
  · have hsame : KV.get s'.grants (a, b) = KV.get s.grants (a, b) := by
      by_cases h3 : f.signer = a ∧ f.caller = b
      · exact hpaid (by
          cases hp : f.paid with
          | true => rfl
          | false => exact absurd ⟨h3.1, h3.2, hp⟩ hm)
      · exact hother h3
    refine ⟨hsound, ?_, ?_, ?_, ?_⟩
    · rw [hframes, hsame]; exact fun f' hf' => hI.held f' (hsub f' hf')
    · rw [hframes]; exact hsingle.2
    · rw [hframes]; exact fun f' hf' => hI.paid f' (hsub f' hf')
    · rw [hframes, hlog, hlr]
      have hl' : left s' a b p ch d = left s a b p ch d := by rw [left_eq, left_eq, hsame]
      rw [hl']
      by_cases hh : f.signer = a ∧ f.caller = b ∧ f.msg.port = p ∧ f.msg.chan = ch ∧ f.msg.name = d
      · have hp : f.paid = true := by
          cases hp : f.paid with
          | true => rfl
          | false => exact absurd ⟨hh.1, hh.2.1, hp⟩ hm
        rw [if_pos hh]
        rw [if_pos ⟨hp, hh⟩] at hbound
        omega
      · rw [if_neg hh]
        rw [if_neg (fun x => hh x.2)] at hbound
        omega

theorem Acct.exec {c : Chain W} {a b : Addr} {p ch d T K : Nat} {s s' : St W} {k : Addr} {m : Msg} (hK : K < unlimited) (hab : a ≠ b)
    (hI : Acct a b p ch d T K s) (h : step c s (.exec k m) = some s') : Acct a b p ch d T K s' := by
  have hsound := sound_step hI.sound h
  unfold step at h
  dsimp only at h
  split at h
  · next hf =>
    have hbound := hI.bound
    rw [hf] at hbound
    have hpd : ∀ (s1 : St W) (o : Addr), s1.frames = [] → pend a b p ch d (push c s1 o k m .keep none true).frames
        = if o = a ∧ k = b ∧ m.port = p ∧ m.chan = ch ∧ m.name = d then m.amount else 0 := by
      intro s1 o h1
      show (if true = true ∧ _ then _ else _) + pend a b p ch d s1.frames = _
      rw [h1]
      simp only [true_and]
      rfl
    have fin : ∀ (s1 : St W) (o : Addr), s' = push c s1 o k m .keep none true → s1.frames = [] → s1.log = s.log →
        left s1 a b p ch d + (if o = a ∧ k = b ∧ m.port = p ∧ m.chan = ch ∧ m.name = d then m.amount else 0) ≤ left s a b p ch d →
        Acct a b p ch d T K s' := by
      intro s1 o hs' h1 h2 h3
      subst hs'
      have hfr : (push c s1 o k m .keep none true).frames = [⟨o, k, m, .keep, none, true, c.converts s1.world m⟩] := by
        show _ :: s1.frames = _
        rw [h1]
      refine ⟨hsound, ?_, ?_, ?_, ?_⟩
      · rw [hfr]
        intro f hf' hm
        rw [List.mem_singleton.1 hf'] at hm
        cases hm.2.2
      · rw [hfr]; exact List.pairwise_singleton _ _
      · rw [hfr]
        intro f hf' _
        rw [List.mem_singleton.1 hf']
      · rw [hpd s1 o h1]
        show sentFor a b p ch d s1.log + left s1 a b p ch d + _ + T ≤ K
        rw [h2]
        have : pend a b p ch d [] = 0 := rfl
        rw [this] at hbound
        omega
    obtain ⟨_, ⟨hsk, hs'⟩ | ⟨_, g, hl, hrest⟩⟩ := exec_some h
    · refine fin s k hs' hf rfl ?_
      rw [if_neg (fun x => hab (x.1.symm.trans x.2.1))]
      exact Nat.le_refl _
    · have hg := (live_some.1 hl).1
      have hleft : m.sender = a ∧ k = b → ∀ p ch d, left s a b p ch d = g.auth.allows p ch d := by
        rintro ⟨rfl, rfl⟩ p ch d
        rw [left_eq, hg]; rfl
      rcases hrest with ⟨hgen, hs'⟩ | ⟨as, r, ha, hr, hcase⟩
      · refine fin s m.sender hs' hf rfl ?_
        by_cases hh : m.sender = a ∧ k = b
        · exfalso
          have := left_lt hI hK
          rw [hleft hh, hgen] at this
          exact Nat.lt_irrefl _ this
        · rw [if_neg (fun x => hh ⟨x.1, x.2.1⟩)]; exact Nat.le_refl _
      · have hwf := hI.sound.1 _ _ _ hg ha
        obtain ⟨al, hal, _, hacc⟩ := accept_some hwf hr
        rcases hcase with ⟨hkeep, hs'⟩ | ⟨s1, x, hw1, hs', hx⟩
        · refine fin s m.sender hs' hf rfl ?_
          by_cases hh : m.sender = a ∧ k = b ∧ m.port = p ∧ m.chan = ch ∧ m.name = d
          · exfalso
            rcases hacc with ⟨hun, _⟩ | ⟨_, _, hnk, _⟩
            · have := left_lt hI hK
              rw [hleft ⟨hh.1, hh.2.1⟩, ha, ← hh.2.2.1, ← hh.2.2.2.1, ← hh.2.2.2.2, allows_of_lookup hal, hun] at this
              exact Nat.lt_irrefl _ this
            · exact hnk hkeep
          · rw [if_neg hh]; exact Nat.le_refl _
        · have hx' : gAllows x p ch d = r.allows as p ch d := by
            rcases hx with ⟨h3, h4⟩ | ⟨as', h3, h4⟩
            · rw [h3, h4]; rfl
            · rw [h3, h4]; rfl
          refine fin s1 m.sender hs' (hw1.frames.trans hf) hw1.log ?_
          rw [hw1.left]
          by_cases hk : (a, b) = (m.sender, k)
          · rw [if_pos hk, hx']
            cases hk
            rw [hleft ⟨rfl, rfl⟩, ha]
            rcases hacc with ⟨_, hkeep⟩ | ⟨_, _, _, _, hafter⟩
            · rcases hx with ⟨h3, _⟩ | ⟨_, h3, _⟩
              · rw [hkeep] at h3; cases h3
              · rw [hkeep] at h3; cases h3
            · rw [← hafter p ch d]
              by_cases hh : p = m.port ∧ ch = m.chan ∧ d = m.name
              · rw [if_pos hh, if_pos ⟨rfl, rfl, hh.1.symm, hh.2.1.symm, hh.2.2.symm⟩]
                exact Nat.le_refl _
              · rw [if_neg hh, if_neg (fun x => hh ⟨x.2.2.1.symm, x.2.2.2.1.symm, x.2.2.2.2.symm⟩)]
                exact Nat.le_refl _
          · rw [if_neg hk, if_neg (fun x => hk (by rw [x.1, x.2.1]))]
            exact Nat.le_refl _
  · cases h

theorem Acct.step {c : Chain W} {a b : Addr} {p ch d T K : Nat} {s s' : St W} {op : Op W} (hab : a ≠ b) (hK : K < unlimited)
    (hI : Acct a b p ch d T K s) (h : step c s op = some s') (hq : Busy s a b → ¬ about a b op) :
    Acct a b p ch d (T + takenBack a b p ch d op) (K + consent a b p ch d op) s' := by
  cases op with
  | call o k m => exact hI.call h hq
  | enter o k m => exact hI.enter hab h hq
  | leave => exact hI.leave hK h
  | exec k m => exact hI.exec hK hab h
  | grant o g x e =>
    unfold Ics.step at h
    dsimp only at h
    split at h
    · next hf =>
      obtain ⟨_, h1, h2⟩ := grant_some h
      refine hI.writes h1 (fun y as hy ha => by cases hy; exact h2 as ha) (fun _ hb => ?_) ?_
      · obtain ⟨f, hf', _⟩ := hb
        rw [hf] at hf'
        cases hf'
      · rw [h1.left]
        show _ + (T + 0) + K ≤ _ + T + (K + if o = a ∧ g = b then x.allows p ch d else 0)
        by_cases hk : (a, b) = (o, g)
        · cases hk
          rw [if_pos rfl, if_pos ⟨rfl, rfl⟩]
          show x.allows p ch d + _ + _ ≤ _
          omega
        · rw [if_neg hk, if_neg (fun hh => hk (by rw [hh.1, hh.2]))]
          omega
    · cases h
  | drop o g =>
    unfold Ics.step at h
    dsimp only at h
    split at h
    · next hf =>
      have h1 : Writes s s' o g none := (deleteGrant_some h).1
      refine hI.writes h1 (fun _ _ hy => nomatch hy) (fun _ hb => ?_) ?_
      · obtain ⟨f, hf', _⟩ := hb
        rw [hf] at hf'
        cases hf'
      · rw [h1.left]
        show _ + (T + 0) + K ≤ _ + T + (K + 0)
        split
        · exact Nat.add_le_add_right (Nat.add_le_add_right (Nat.zero_le _) _) _
        · exact Nat.le_refl _
    · cases h
  | other w =>
    unfold Ics.step at h
    dsimp only at h
    split at h
    · cases h; exact ⟨hI.sound, hI.held, hI.single, hI.paid, hI.bound⟩
    · cases h
  | tick dt =>
    unfold Ics.step at h
    dsimp only at h
    split at h
    · cases h; exact ⟨hI.sound, hI.held, hI.single, hI.paid, hI.bound⟩
    · cases h

theorem Acct.run {c : Chain W} {a b : Addr} {p ch d : Nat} (hab : a ≠ b) (ops : List (Op W)) :
    ∀ {T K : Nat} {s s' : St W}, K + total (consent a b p ch d) ops < unlimited → Acct a b p ch d T K s → run c s ops = some s' →
      Undisturbed c a b s ops → Acct a b p ch d (T + total (takenBack a b p ch d) ops) (K + total (consent a b p ch d) ops) s' := by
  induction ops with
  | nil =>
    intro T K s s' _ hI h _
    cases h
    exact hI
  | cons op ops ih =>
    intro T K s s' hK hI h hu
    unfold Ics.run at h
    cases hs : Ics.step c s op with
    | none => rw [hs] at h; cases h
    | some s1 =>
      rw [hs] at h
      have hK' : K + (consent a b p ch d op + total (consent a b p ch d) ops) < unlimited := hK
      have h1 := hI.step hab (Nat.lt_of_le_of_lt (Nat.le_add_right _ _) hK') hs hu.1
      have h2 := ih (by omega) h1 h (hu.2 s1 hs)
      show Acct a b p ch d (T + (_ + _)) (K + (_ + _)) s'
      rw [← Nat.add_assoc, ← Nat.add_assoc]
      exact h2

end Ics
