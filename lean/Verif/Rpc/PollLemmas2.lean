import Verif.Rpc.PollLemmas

/-!
# Polling filters: topics are closed only with their openers
-/

namespace Poll

/-- A filter of this kind that opened the topic was removed. -/
def Gone (s : State) (k : Kind) : Prop :=
  ∃ j f, s.fil j = some f ∧ f.kind = k ∧ f.opener = true ∧ f.removed = true

theorem Gone.mono {s s' : State} (h : Grows s s') {k : Kind} (hg : Gone s k) : Gone s' k := by
  obtain ⟨j, f, hf, hk, ho, hr⟩ := hg
  obtain ⟨f', hf', hp⟩ := h j f hf
  exact ⟨j, f', hf', by rw [hp.kind, hk], by rw [hp.opener, ho], hp.removed hr⟩

/-- The flags of one filter fit together. -/
structure Fits (f : Fil) : Prop where
  indexed : f.indexed = true → f.opener = true
  asked : f.asked = true → f.removed = true
  err : f.errClosed = true → f.removed = true ∧ f.asked = false
  removed : f.removed = true → f.listed = false

/-- What the filter owes to others. -/
structure Owes (s : State) (f : Fil) : Prop where
  fits : Fits f
  shut : f.chClosed = true → Gone s f.kind
  unlisted : f.listed = false → f.removed = true ∨ Gone s f.kind

theorem Owes.mono {s s' : State} {f : Fil} (h : Grows s s') (ho : Owes s f) : Owes s' f :=
  ⟨ho.fits, fun h1 => (ho.shut h1).mono h, fun h1 => (ho.unlisted h1).imp id (fun h2 => h2.mono h)⟩

/-- Some filter of the kind is in the index. -/
def Indexed (s : State) (k : Kind) : Prop := ∃ j f, s.fil j = some f ∧ f.kind = k ∧ f.indexed = true

/-- Topics and their openers. -/
structure Topics (s : State) : Prop where
  bounded : Bounded s
  pubs : ∀ c, s.nextPub ≤ c → s.pub c = none
  chan : ∀ k c, s.chan k = some c →
    (∃ p, s.pub c = some p ∧ p.kind = k ∧ p.closed = false) ∧ Indexed s k
  fils : ∀ i f, s.fil i = some f → Owes s f
  closed : ∀ c p, s.pub c = some p → p.closed = true → Gone s p.kind
  crashed : s.crashed = true → ∃ k, Gone s k

theorem topics_init : Topics init where
  bounded := bounded_init
  pubs := fun _ _ => rfl
  chan := fun _ _ h => nomatch h
  fils := fun _ _ h => nomatch h
  closed := fun _ _ h => nomatch h
  crashed := (fun h => nomatch h)

/-- The index only changes by the loop that uninstalls. -/
theorem Indexed.set {s s' : State} {i : Nat} {f f' : Fil} (hf : s.fil i = some f)
    (h : s'.fil = setAt s.fil i f') (hk : f'.kind = f.kind) (hi : f'.indexed = f.indexed) {k : Kind}
    (hx : Indexed s k) : Indexed s' k := by
  obtain ⟨j, g, hg, h1, h2⟩ := hx
  by_cases hj : j = i
  · subst hj
    rw [hf] at hg
    cases hg
    exact ⟨j, f', by rw [h, setAt_same], by rw [hk, h1], by rw [hi, h2]⟩
  · exact ⟨j, g, by rw [h, setAt_ne hj]; exact hg, h1, h2⟩

theorem Indexed.map {s s' : State} {φ : Nat → Fil → Fil} (h : s'.fil = fun i => (s.fil i).map (φ i))
    (hk : ∀ i f, (φ i f).kind = f.kind ∧ (φ i f).indexed = f.indexed) {k : Kind} (hx : Indexed s k) :
    Indexed s' k := by
  obtain ⟨j, g, hg, h1, h2⟩ := hx
  refine ⟨j, φ j g, ?_, by rw [(hk j g).1, h1], by rw [(hk j g).2, h2]⟩
  rw [h]
  dsimp only
  rw [hg]
  rfl

/-- One filter changes and nothing else. -/
theorem Topics.set {s : State} (ht : Topics s) {i : Nat} {f f' : Fil} (hf : s.fil i = some f)
    (hk : Keeps f f') (hi : f'.indexed = f.indexed)
    (ho : ∀ s', Grows s s' → s'.fil i = some f' → Owes s' f') :
    Topics { s with fil := setAt s.fil i f' } := by
  have hg : Grows s { s with fil := setAt s.fil i f' } := Grows.set hf hk rfl
  refine ⟨fun j hj => ht.bounded.set hf hj, ht.pubs, ?_, ?_, ?_, ?_⟩
  · intro k c hc
    obtain ⟨h1, h2⟩ := ht.chan k c hc
    exact ⟨h1, h2.set hf rfl hk.kind hi⟩
  · intro j g hj
    rcases setAt_some hj with ⟨rfl, rfl⟩ | ⟨_, hj'⟩
    · exact ho _ hg (setAt_same _ _ _)
    · exact (ht.fils j g hj').mono hg
  · intro c p hp hc
    exact (ht.closed c p hp hc).mono hg
  · intro hc
    obtain ⟨k, h⟩ := ht.crashed hc
    exact ⟨k, h.mono hg⟩

theorem handled_flags (f : Fil) (e : Ev) :
    (handled f e).indexed = f.indexed ∧ (handled f e).asked = f.asked ∧
    (handled f e).errClosed = f.errClosed ∧ (handled f e).removed = f.removed ∧
    (handled f e).listed = f.listed ∧ (handled f e).chClosed = f.chClosed ∧
    (handled f e).opener = f.opener ∧ (handled f e).kind = f.kind := by
  unfold handled
  split
  · exact ⟨rfl, rfl, rfl, rfl, rfl, rfl, rfl, rfl⟩
  · split <;> exact ⟨rfl, rfl, rfl, rfl, rfl, rfl, rfl, rfl⟩

theorem offer_flags (k : Kind) (e : Ev) (r : Bool) (f : Fil) :
    (offer k e r f).indexed = f.indexed ∧ (offer k e r f).asked = f.asked ∧
    (offer k e r f).errClosed = f.errClosed ∧ (offer k e r f).removed = f.removed ∧
    (offer k e r f).listed = f.listed ∧ (offer k e r f).chClosed = f.chClosed ∧
    (offer k e r f).opener = f.opener ∧ (offer k e r f).kind = f.kind := by
  unfold offer
  split <;> exact ⟨rfl, rfl, rfl, rfl, rfl, rfl, rfl, rfl⟩

theorem owes_of_flags {s : State} {f f' : Fil} (h : f'.indexed = f.indexed ∧ f'.asked = f.asked ∧
    f'.errClosed = f.errClosed ∧ f'.removed = f.removed ∧ f'.listed = f.listed ∧
    f'.chClosed = f.chClosed ∧ f'.opener = f.opener ∧ f'.kind = f.kind) (ho : Owes s f) : Owes s f' := by
  obtain ⟨h1, h2, h3, h4, h5, h6, h7, h8⟩ := h
  refine ⟨⟨?_, ?_, ?_, ?_⟩, ?_, ?_⟩
  · rw [h1, h7]
    exact ho.fits.indexed
  · rw [h2, h4]
    exact ho.fits.asked
  · rw [h3, h4, h2]
    exact ho.fits.err
  · rw [h4, h5]
    exact ho.fits.removed
  · rw [h6, h8]
    exact ho.shut
  · rw [h5, h4, h8]
    exact ho.unlisted

/-- A new filter. -/
theorem owes_new (s' : State) (k : Kind) (c : Crit) (o : Bool) : Owes s' (newFil k c o) :=
  ⟨⟨id, (fun h => nomatch h), (fun h => nomatch h), (fun h => nomatch h)⟩, (fun h => nomatch h),
    (fun h => nomatch h)⟩

theorem inUse_true {s : State} {k : Kind} {i : Nat} (h : inUse s k i = true) :
    ∃ j g, j ≠ i ∧ s.fil j = some g ∧ g.kind = k ∧ g.indexed = true := by
  unfold inUse at h
  rw [List.any_eq_true] at h
  obtain ⟨j, _, hj⟩ := h
  rw [Bool.and_eq_true, decide_eq_true_eq, Option.any_eq_true] at hj
  obtain ⟨h1, g, hg, h2⟩ := hj
  rw [Bool.and_eq_true, decide_eq_true_eq] at h2
  exact ⟨j, g, h1, hg, h2.2, h2.1⟩

theorem inUse_false {s : State} {k : Kind} {i : Nat} (hb : Bounded s) (h : inUse s k i = false) {j : Nat}
    {g : Fil} (hg : s.fil j = some g) (hk : g.kind = k) (hi : g.indexed = true) : j = i := by
  unfold inUse at h
  rw [List.any_eq_false] at h
  have h1 := h j (List.mem_range.2 (hb.lt hg))
  rw [hg] at h1
  by_cases hj : j = i
  · exact hj
  · refine absurd ?_ h1
    rw [Bool.and_eq_true, decide_eq_true_eq]
    refine ⟨hj, ?_⟩
    show (g.indexed && decide (g.kind = k)) = true
    rw [hi, hk, Bool.true_and, decide_eq_true_eq]

theorem topics_move {cap : Nat} {s s' : State} (ht : Topics s) (h : Move cap s s') : Topics s' := by
  have hg : Grows s s' := grows_move ht.bounded h
  have hb : Bounded s' := bounded_move ht.bounded h
  cases h with
  | same => exact ht
  | joined k c h1 h2 h3 =>
    refine ⟨hb, ht.pubs, ?_, ?_, ?_, ?_⟩
    · intro k' c' hc
      obtain ⟨h4, j, f, hf, h5⟩ := ht.chan k' c' hc
      refine ⟨h4, j, f, ?_, h5⟩
      show setAt _ _ _ j = _
      rw [setAt_ne (by have := ht.bounded.lt hf; omega)]
      exact hf
    · intro j g hj
      rcases setAt_some hj with ⟨rfl, rfl⟩ | ⟨_, hj'⟩
      · exact owes_new _ _ _ _
      · exact (ht.fils j g hj').mono hg
    · exact fun c' p hp hc => (ht.closed c' p hp hc).mono hg
    · intro hc
      obtain ⟨k', h⟩ := ht.crashed hc
      exact ⟨k', h.mono hg⟩
  | opened k c h1 h2 h3 =>
    refine ⟨hb, ?_, ?_, ?_, ?_, ?_⟩
    · intro c' hc'
      show setAt _ _ _ c' = none
      have hlt : s.nextPub + 1 ≤ c' := hc'
      rw [setAt_ne (by omega)]
      exact ht.pubs c' (by omega)
    · intro k' c' hc
      by_cases hk : k' = k
      · subst hk
        have hc' : setKind s.chan k' (some s.nextPub) k' = some c' := hc
        rw [setKind_same] at hc'
        cases hc'
        exact ⟨⟨_, setAt_same _ _ _, rfl, rfl⟩, s.next, _, setAt_same _ _ _, rfl, rfl⟩
      · have hc' : setKind s.chan k (some s.nextPub) k' = some c' := hc
        rw [setKind_ne hk] at hc'
        obtain ⟨⟨p, hp, h4⟩, j, f, hf, h5⟩ := ht.chan k' c' hc'
        refine ⟨⟨p, ?_, h4⟩, j, f, ?_, h5⟩
        · show setAt _ _ _ c' = _
          rw [setAt_ne]
          · exact hp
          · rintro rfl
            rw [ht.pubs _ (Nat.le_refl _)] at hp
            cases hp
        · show setAt _ _ _ j = _
          rw [setAt_ne (by have := ht.bounded.lt hf; omega)]
          exact hf
    · intro j g hj
      rcases setAt_some hj with ⟨rfl, rfl⟩ | ⟨_, hj'⟩
      · exact owes_new _ _ _ _
      · exact (ht.fils j g hj').mono hg
    · intro c' p hp hc
      rcases setAt_some hp with ⟨rfl, rfl⟩ | ⟨_, hp'⟩
      · cases hc
      · exact (ht.closed c' p hp' hc).mono hg
    · intro hc
      obtain ⟨k', h⟩ := ht.crashed hc
      exact ⟨k', h.mono hg⟩
  | unheard k b h1 h2 =>
    exact ⟨hb, ht.pubs, ht.chan, fun i f hf => (ht.fils i f hf).mono hg,
      fun c p hp hc => (ht.closed c p hp hc).mono hg, ht.crashed⟩
  | heard k b c h1 h2 =>
    exact ⟨hb, ht.pubs, ht.chan, fun i f hf => (ht.fils i f hf).mono hg,
      fun c p hp hc => (ht.closed c p hp hc).mono hg, ht.crashed⟩
  | sendFails c e p h1 h2 h3 =>
    exact ⟨hb, ht.pubs, ht.chan, fun i f hf => (ht.fils i f hf).mono hg,
      fun c p hp hc => (ht.closed c p hp hc).mono hg, fun _ => ⟨p.kind, (ht.closed c p h2 h3).mono hg⟩⟩
  | sent c e p h1 h2 h3 h4 =>
    refine ⟨hb, ?_, ?_, fun i f hf => (ht.fils i f hf).mono hg, ?_, ht.crashed⟩
    · intro c' hc'
      show setAt _ _ _ c' = none
      rw [setAt_ne]
      · exact ht.pubs c' hc'
      · rintro rfl
        rw [ht.pubs _ hc'] at h2
        cases h2
    · intro k' c' hc
      obtain ⟨⟨q, hq, h5, h6⟩, h7⟩ := ht.chan k' c' hc
      refine ⟨?_, h7⟩
      by_cases hcc : c' = c
      · subst hcc
        rw [h2] at hq
        cases hq
        exact ⟨_, setAt_same _ _ _, h5, h6⟩
      · exact ⟨q, (setAt_ne hcc).trans hq, h5, h6⟩
    · intro c' q hq hc
      rcases setAt_some hq with ⟨rfl, rfl⟩ | ⟨_, hq'⟩
      · exact (ht.closed c' p h2 hc).mono hg
      · exact (ht.closed c' q hq' hc).mono hg
  | dropped =>
    exact ⟨hb, ht.pubs, ht.chan, fun i f hf => (ht.fils i f hf).mono hg,
      fun c p hp hc => (ht.closed c p hp hc).mono hg, ht.crashed⟩
  | published c p e r h1 h2 =>
    refine ⟨hb, ?_, ?_, ?_, ?_, ?_⟩
    · intro c' hc'
      show setAt _ _ _ c' = none
      rw [setAt_ne]
      · exact ht.pubs c' hc'
      · rintro rfl
        rw [ht.pubs _ hc'] at h1
        cases h1
    · intro k' c' hc
      obtain ⟨⟨q, hq, h5, h6⟩, h7⟩ := ht.chan k' c' hc
      refine ⟨?_, h7.map (φ := fun i => offer p.kind e (r.contains i)) rfl
        (fun i f => ⟨(offer_flags _ _ _ f).2.2.2.2.2.2.2, (offer_flags _ _ _ f).1⟩)⟩
      by_cases hcc : c' = c
      · subst hcc
        rw [h1] at hq
        cases hq
        exact ⟨_, setAt_same _ _ _, h5, h6⟩
      · exact ⟨q, (setAt_ne hcc).trans hq, h5, h6⟩
    · intro j g hj
      have hj' : (s.fil j).map (offer p.kind e (r.contains j)) = some g := hj
      rw [Option.map_eq_some_iff] at hj'
      obtain ⟨f, hf, rfl⟩ := hj'
      exact owes_of_flags (offer_flags _ _ _ f) ((ht.fils j f hf).mono hg)
    · intro c' q hq hc
      rcases setAt_some hq with ⟨rfl, rfl⟩ | ⟨_, hq'⟩
      · exact (ht.closed c' p h1 hc).mono hg
      · exact (ht.closed c' q hq' hc).mono hg
    · intro hc
      obtain ⟨k', h⟩ := ht.crashed hc
      exact ⟨k', h.mono hg⟩
  | ended c p h1 h2 h3 =>
    have hgone := (ht.closed c p h1 h2).mono hg
    refine ⟨hb, ?_, ?_, ?_, ?_, ?_⟩
    · intro c' hc'
      show setAt _ _ _ c' = none
      rw [setAt_ne]
      · exact ht.pubs c' hc'
      · rintro rfl
        rw [ht.pubs _ hc'] at h1
        cases h1
    · intro k' c' hc
      obtain ⟨⟨q, hq, h5, h6⟩, h7⟩ := ht.chan k' c' hc
      refine ⟨?_, h7.map (φ := fun _ => shut p.kind) rfl (fun i f => ?_)⟩
      · by_cases hcc : c' = c
        · subst hcc
          rw [h1] at hq
          cases hq
          exact ⟨_, setAt_same _ _ _, h5, h6⟩
        · exact ⟨q, (setAt_ne hcc).trans hq, h5, h6⟩
      · unfold shut
        split <;> exact ⟨rfl, rfl⟩
    · intro j g hj
      have hj' : (s.fil j).map (shut p.kind) = some g := hj
      rw [Option.map_eq_some_iff] at hj'
      obtain ⟨f, hf, rfl⟩ := hj'
      have ho := (ht.fils j f hf).mono hg
      unfold shut
      split
      · rename_i hk
        refine ⟨⟨ho.fits.indexed, ho.fits.asked, ho.fits.err, ho.fits.removed⟩, fun _ => ?_, ho.unlisted⟩
        show Gone _ f.kind
        rw [hk.2]
        exact hgone
      · exact ho
    · intro c' q hq hc
      rcases setAt_some hq with ⟨rfl, rfl⟩ | ⟨_, hq'⟩
      · exact hgone
      · exact (ht.closed c' q hq' hc).mono hg
    · intro hc
      obtain ⟨k', h⟩ := ht.crashed hc
      exact ⟨k', h.mono hg⟩
  | handled i f e hf h1 h2 =>
    exact ht.set hf (keeps_handled f e) (handled_flags f e).1
      (fun s' h _ => owes_of_flags (handled_flags f e) ((ht.fils i f hf).mono h))
  | chEnded i f hf h1 h2 =>
    refine ht.set hf ⟨rfl, rfl, rfl, id, (fun h => nomatch h)⟩ rfl (fun s' h _ => ?_)
    have ho := (ht.fils i f hf).mono h
    exact ⟨⟨ho.fits.indexed, ho.fits.asked, ho.fits.err, fun _ => rfl⟩, ho.shut,
      fun _ => Or.inr (ho.shut h2)⟩
  | spun i f hf h1 h2 =>
    refine ht.set hf ⟨rfl, rfl, rfl, id, (fun h => nomatch h)⟩ rfl (fun s' h _ => ?_)
    have ho := (ht.fils i f hf).mono h
    exact ⟨⟨ho.fits.indexed, ho.fits.asked, ho.fits.err, fun _ => rfl⟩, ho.shut,
      fun _ => Or.inl (ho.fits.err h1).1⟩
  | errEnded i f hf h1 h2 =>
    refine ht.set hf ⟨rfl, rfl, rfl, id, (fun h => nomatch h)⟩ rfl (fun s' h _ => ?_)
    have ho := (ht.fils i f hf).mono h
    exact ⟨⟨ho.fits.indexed, ho.fits.asked, ho.fits.err, fun _ => rfl⟩, ho.shut,
      fun _ => Or.inl (ho.fits.err h2).1⟩
  | removed i f hf h1 =>
    refine ht.set hf ⟨rfl, rfl, rfl, (fun _ => rfl), (fun h => nomatch h)⟩ rfl (fun s' h _ => ?_)
    have ho := (ht.fils i f hf).mono h
    refine ⟨⟨ho.fits.indexed, fun _ => rfl, fun h2 => ?_, fun _ => rfl⟩, ho.shut, fun _ => Or.inl rfl⟩
    have h3 := ho.fits.removed (ho.fits.err h2).1
    rw [h1] at h3
    cases h3
  | uninstalled i f s' hf ha hu =>
    have ho := ht.fils i f hf
    have hr : f.removed = true := ho.fits.asked ha
    have hne : f.errClosed = false := by
      cases he : f.errClosed with
      | false => rfl
      | true =>
        have h2 := (ho.fits.err he).2
        rw [ha] at h2
        cases h2
    have hself : ∀ s'' : State, Grows s s'' →
        Owes s'' { f with asked := false, indexed := false, errClosed := true } := by
      intro s'' h
      have ho' := ho.mono h
      exact ⟨⟨(fun h => nomatch h), (fun h => nomatch h), fun _ => ⟨hr, rfl⟩, ho'.fits.removed⟩, ho'.shut,
        ho'.unlisted⟩
    have hfils : ∀ s'' : State, Grows s s'' → ∀ j g,
        setAt s.fil i { f with asked := false, indexed := false, errClosed := true } j = some g →
        Owes s'' g := by
      intro s'' h j g hj
      rcases setAt_some hj with ⟨rfl, rfl⟩ | ⟨_, hj'⟩
      · exact hself s'' h
      · exact (ht.fils j g hj').mono h
    have hcr : ∀ s'' : State, Grows s s'' → s.crashed = true → ∃ k, Gone s'' k := by
      intro s'' h hc
      obtain ⟨k', h'⟩ := ht.crashed hc
      exact ⟨k', h'.mono h⟩
    have hidx : ∀ (s'' : State) k', s''.fil =
        setAt s.fil i { f with asked := false, indexed := false, errClosed := true } →
        (k' = f.kind → inUse s f.kind i = true) → Indexed s k' → Indexed s'' k' := by
      intro s'' k' hs hu hx
      by_cases hk : k' = f.kind
      · obtain ⟨j, g, hj, hgj, h1, h2⟩ := inUse_true (hu hk)
        exact ⟨j, g, by rw [hs, setAt_ne hj]; exact hgj, by rw [h1, hk], h2⟩
      · obtain ⟨j, g, hgj, h1, h2⟩ := hx
        refine ⟨j, g, ?_, h1, h2⟩
        rw [hs, setAt_ne]
        · exact hgj
        · rintro rfl
          rw [hf] at hgj
          cases hgj
          exact hk h1.symm
    cases hu with
    | twice h1 =>
      rw [hne] at h1
      cases h1
    | used h1 h2 =>
      refine ⟨hb, ht.pubs, ?_, hfils _ hg, fun c p hp hc => (ht.closed c p hp hc).mono hg, hcr _ hg⟩
      intro k' c' hc
      obtain ⟨h5, h6⟩ := ht.chan k' c' hc
      exact ⟨h5, hidx _ k' rfl (fun _ => h2) h6⟩
    | noTopic h1 h2 h3 =>
      refine ⟨hb, ht.pubs, ?_, hfils _ hg, fun c p hp hc => (ht.closed c p hp hc).mono hg, hcr _ hg⟩
      intro k' c' hc
      obtain ⟨h5, h6⟩ := ht.chan k' c' hc
      refine ⟨h5, hidx _ k' rfl (fun hk => ?_) h6⟩
      subst hk
      obtain ⟨p, hp, _⟩ := h5
      have hc' : s.chan f.kind = some c' := hc
      rcases h3 with h3 | ⟨c, h3, h4⟩
      · rw [h3] at hc'
        cases hc'
      · rw [h3] at hc'
        cases hc'
        have hp' : s.pub c' = some p := hp
        rw [h4] at hp'
        cases hp'
    | closedTwice c p h1 h2 h3 h4 =>
      obtain ⟨⟨q, hq, _, h5⟩, _⟩ := ht.chan _ c h2
      rw [h3] at hq
      cases hq
      rw [h4] at h5
      cases h5
    | closes c p h1 h2 h3 h4 h5 =>
      obtain ⟨⟨q, hq, hqk, _⟩, j, g, hgj, hgk, hgi⟩ := ht.chan _ c h3
      rw [h4] at hq
      cases hq
      have hji : j = i := inUse_false ht.bounded h2 hgj hgk hgi
      subst hji
      rw [hf] at hgj
      cases hgj
      have hop : f.opener = true := ho.fits.indexed hgi
      have hgone : Gone s f.kind := ⟨j, f, hf, rfl, hop, hr⟩
      refine ⟨hb, ?_, ?_, hfils _ hg, ?_, hcr _ hg⟩
      · intro c' hc'
        show setAt _ _ _ c' = none
        rw [setAt_ne]
        · exact ht.pubs c' hc'
        · rintro rfl
          rw [ht.pubs _ hc'] at h4
          cases h4
      · intro k' c' hc
        have hc' : setKind s.chan f.kind none k' = some c' := hc
        by_cases hk : k' = f.kind
        · subst hk
          rw [setKind_same] at hc'
          cases hc'
        · rw [setKind_ne hk] at hc'
          obtain ⟨⟨r, hr1, hr2, hr3⟩, h6⟩ := ht.chan k' c' hc'
          refine ⟨⟨r, ?_, hr2, hr3⟩, hidx _ k' rfl (fun h => absurd h hk) h6⟩
          show setAt _ _ _ c' = _
          rw [setAt_ne]
          · exact hr1
          · rintro rfl
            rw [h4] at hr1
            cases hr1
            exact hk (hr2.symm.trans hqk)
      · intro c' r hr1 hr2
        rcases setAt_some hr1 with ⟨rfl, rfl⟩ | ⟨_, hr3⟩
        · show Gone _ p.kind
          rw [hqk]
          exact hgone.mono hg
        · exact (ht.closed c' r hr3 hr2).mono hg
  | polled i f hf h1 =>
    refine ht.set hf ⟨rfl, rfl, rfl, id, id⟩ rfl (fun s' h _ => ?_)
    have ho := (ht.fils i f hf).mono h
    exact ⟨⟨ho.fits.indexed, ho.fits.asked, ho.fits.err, ho.fits.removed⟩, ho.shut, ho.unlisted⟩

theorem topics_run (cap : Nat) (ops : List Op) : Topics (run cap ops) :=
  run_induction cap topics_init (fun _ _ h hm => topics_move h hm) ops

end Poll
