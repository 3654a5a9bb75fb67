import Verif.Rpc.PollFlow2

/-!
# Polling filters: the number of filters, and filters that work
-/

namespace Poll

theorem any_listed {s : State} {i : Nat} (h : (s.fil i).any (·.listed) = true) :
    ∃ f, s.fil i = some f ∧ f.listed = true := by
  rw [Option.any_eq_true] at h
  exact h

/-- The table never grows beyond the limit. -/
theorem count_move {cap : Nat} {s s' : State} (hc : count s ≤ cap) (h : Move cap s s') :
    count s' ≤ cap := by
  have hsame : ∀ s'' : State, s''.next = s.next →
      (∀ i f', s''.fil i = some f' → f'.listed = true → ∃ f, s.fil i = some f ∧ f.listed = true) →
      count s'' ≤ cap := by
    intro s'' hn hf
    refine Nat.le_trans ?_ hc
    unfold count
    rw [hn]
    refine List.countP_mono_left (fun i _ hi => ?_)
    obtain ⟨f', h1, h2⟩ := any_listed hi
    obtain ⟨f, h3, h4⟩ := hf i f' h1 h2
    rw [h3]
    exact h4
  have hset : ∀ (i : Nat) (f f' : Fil), s.fil i = some f → (f'.listed = true → f.listed = true) →
      ∀ j g, setAt s.fil i f' j = some g → g.listed = true → ∃ f, s.fil j = some f ∧ f.listed = true := by
    intro i f f' hf hl j g hj hg
    rcases setAt_some hj with ⟨rfl, rfl⟩ | ⟨_, hj'⟩
    · exact ⟨f, hf, hl hg⟩
    · exact ⟨g, hj', hg⟩
  have hnew : ∀ (s'' : State) (k : Kind) (c : Crit) (o : Bool), s''.next = s.next + 1 →
      s''.fil = setAt s.fil s.next (newFil k c o) → count s < cap → count s'' ≤ cap := by
    intro s'' k c o hn hf hlt
    have : count s'' ≤ count s + 1 := by
      unfold count
      rw [hn, List.range_succ, List.countP_append]
      refine Nat.add_le_add (List.countP_mono_left (fun i hi h => ?_)) (List.countP_le_length)
      rw [List.mem_range] at hi
      rw [hf, setAt_ne (by omega)] at h
      exact h
    omega
  cases h with
  | same => exact hc
  | joined k c h1 => exact hnew _ k c false rfl rfl h1
  | opened k c h1 => exact hnew _ k c true rfl rfl h1
  | unheard => exact hc
  | heard => exact hc
  | sendFails => exact hc
  | sent => exact hc
  | dropped => exact hc
  | published c p e r h1 h2 =>
    refine hsame _ rfl (fun i f' hi hl => ?_)
    have hi' : (s.fil i).map (offer p.kind e (r.contains i)) = some f' := hi
    rw [Option.map_eq_some_iff] at hi'
    obtain ⟨f, hf, rfl⟩ := hi'
    exact ⟨f, hf, (keeps_offer _ _ _ f).listed hl⟩
  | ended c p h1 h2 h3 =>
    refine hsame _ rfl (fun i f' hi hl => ?_)
    have hi' : (s.fil i).map (shut p.kind) = some f' := hi
    rw [Option.map_eq_some_iff] at hi'
    obtain ⟨f, hf, rfl⟩ := hi'
    exact ⟨f, hf, (keeps_shut _ f).listed hl⟩
  | handled i f e hf => exact hsame _ rfl (hset i f _ hf (keeps_handled f e).listed)
  | chEnded i f hf => exact hsame _ rfl (hset i f _ hf (fun h => nomatch h))
  | spun i f hf => exact hsame _ rfl (hset i f _ hf (fun h => nomatch h))
  | errEnded i f hf => exact hsame _ rfl (hset i f _ hf (fun h => nomatch h))
  | removed i f hf => exact hsame _ rfl (hset i f _ hf (fun h => nomatch h))
  | uninstalled i f s' hf ha hu =>
    cases hu with
    | twice => exact hc
    | used => exact hsame _ rfl (hset i f _ hf id)
    | noTopic => exact hsame _ rfl (hset i f _ hf id)
    | closedTwice => exact hsame _ rfl (hset i f _ hf id)
    | closes => exact hsame _ rfl (hset i f _ hf id)
  | polled i f hf => exact hsame _ rfl (hset i f _ hf id)

/-- A topic of the bus has a channel of the event system. -/
theorem topic_chan_move {cap : Nat} {s s' : State} (hc : ∀ k, s.topics k = true → s.chan k ≠ none)
    (h : Move cap s s') : ∀ k, s'.topics k = true → s'.chan k ≠ none := by
  cases h with
  | same => exact hc
  | joined => exact hc
  | opened k c h1 h2 h3 =>
    intro k' hk hn
    have hk' : setKind s.topics k true k' = true := hk
    have hn' : setKind s.chan k (some s.nextPub) k' = none := hn
    by_cases hkk : k' = k
    · subst hkk
      rw [setKind_same] at hn'
      cases hn'
    · rw [setKind_ne hkk] at hk' hn'
      exact hc k' hk' hn'
  | unheard => exact hc
  | heard => exact hc
  | sendFails => exact hc
  | sent => exact hc
  | dropped => exact hc
  | published => exact hc
  | ended c p =>
    intro k' hk
    have hk' : setKind s.topics p.kind false k' = true := hk
    by_cases hkk : k' = p.kind
    · subst hkk
      rw [setKind_same] at hk'
      cases hk'
    · rw [setKind_ne hkk] at hk'
      exact hc k' hk'
  | handled => exact hc
  | chEnded => exact hc
  | spun => exact hc
  | errEnded => exact hc
  | removed => exact hc
  | uninstalled i f s' hf ha hu =>
    cases hu with
    | twice => exact hc
    | used => exact hc
    | noTopic => exact hc
    | closedTwice => exact hc
    | closes =>
      intro k' hk hn
      have hk' : setKind s.topics f.kind false k' = true := hk
      have hn' : setKind s.chan f.kind none k' = none := hn
      by_cases hkk : k' = f.kind
      · subst hkk
        rw [setKind_same] at hk'
        cases hk'
      · rw [setKind_ne hkk] at hk' hn'
        exact hc k' hk' hn'
  | polled => exact hc

theorem topic_chan_run (cap : Nat) (ops : List Op) :
    ∀ k, (run cap ops).topics k = true → (run cap ops).chan k ≠ none :=
  run_induction (P := fun s => ∀ k, s.topics k = true → s.chan k ≠ none) cap (fun _ h => nomatch h)
    (fun _ _ h hm => topic_chan_move h hm) ops

theorem count_run (cap : Nat) (ops : List Op) : count (run cap ops) ≤ cap := by
  refine run_induction (P := fun s => count s ≤ cap) cap (Nat.zero_le _) ?_ ops
  exact fun s s' h hm => count_move h hm

/-- What stays of a filter, over a whole schedule. -/
theorem grows_run {cap : Nat} {s : State} (hb : Bounded s) (ops : List Op) {i : Nat} {f : Fil}
    (hf : s.fil i = some f) : ∃ f', (ops.foldl (step cap) s).fil i = some f' ∧ Keeps f f' := by
  induction ops generalizing s f with
  | nil => exact ⟨f, hf, Keeps.refl f⟩
  | cons o os ih =>
    have hm := step_moves cap s o
    obtain ⟨g, hg, hk⟩ := grows_move hb hm i f hf
    obtain ⟨g', hg', hk'⟩ := ih (bounded_move hb hm) hg
    exact ⟨g', hg', hk'.kind.trans hk.kind, hk'.crit.trans hk.crit, hk'.opener.trans hk.opener,
      fun h => hk'.removed (hk.removed h), fun h => hk.listed (hk'.listed h)⟩

theorem step_up (cap : Nat) {s : State} (h : s.crashed = false) (o : Op) : step cap s o = act cap s o := by
  unfold step
  rw [h]
  rfl

/-- One event reaches a filter that works. -/
theorem working_event (cap : Nat) {s : State} {i c : Nat} {f : Fil} {p : Pub} (hw : Working s i c f p)
    (b : Body) (r : List Nat) (hr : i ∈ r) {is : List Item} (hn : wanted f ⟨s.log.length, f.kind, b⟩ = some is) :
    ∃ p', Working ([.emit f.kind b, .send, .publish c r, .handle i].foldl (step cap) s) i c
      { f with buf := f.buf ++ is } p' := by
  have h1 : act cap s (.emit f.kind b) = { s with
      log := s.log ++ [⟨s.log.length, f.kind, b⟩], inflight := some (c, ⟨s.log.length, f.kind, b⟩) } := by
    show emit f.kind b s = _
    unfold emit
    rw [hw.inflight]
    dsimp only
    rw [hw.chan]
  have h2 : act cap { s with
      log := s.log ++ [⟨s.log.length, f.kind, b⟩], inflight := some (c, ⟨s.log.length, f.kind, b⟩) } .send =
      { s with
        log := s.log ++ [⟨s.log.length, f.kind, b⟩],
        pub := setAt s.pub c { p with holding := some ⟨s.log.length, f.kind, b⟩ }, inflight := none } := by
    unfold act
    dsimp only
    unfold send
    dsimp only
    rw [hw.pub]
    dsimp only
    rw [hw.opened, hw.idle]
    rfl
  have h3 : act cap { s with
        log := s.log ++ [⟨s.log.length, f.kind, b⟩],
        pub := setAt s.pub c { p with holding := some ⟨s.log.length, f.kind, b⟩ }, inflight := none }
      (.publish c r) = { s with
        log := s.log ++ [⟨s.log.length, f.kind, b⟩],
        fil := fun j => (s.fil j).map (offer p.kind ⟨s.log.length, f.kind, b⟩ (r.contains j)),
        pub := setAt (setAt s.pub c { p with holding := some ⟨s.log.length, f.kind, b⟩ }) c
          { p with holding := none },
        inflight := none } := by
    show publish c r _ = _
    unfold publish
    dsimp only
    rw [setAt_same]
  have hoff : (s.fil i).map (offer p.kind ⟨s.log.length, f.kind, b⟩ (r.contains i)) =
      some { f with holding := some ⟨s.log.length, f.kind, b⟩ } := by
    rw [hw.fil]
    show some (offer p.kind _ _ f) = _
    unfold offer
    rw [if_pos ⟨hw.subscribed, hw.kind.symm, hw.running, hw.holding, List.contains_iff_mem.2 hr⟩]
  have h4 : act cap { s with
        log := s.log ++ [⟨s.log.length, f.kind, b⟩],
        fil := fun j => (s.fil j).map (offer p.kind ⟨s.log.length, f.kind, b⟩ (r.contains j)),
        pub := setAt (setAt s.pub c { p with holding := some ⟨s.log.length, f.kind, b⟩ }) c
          { p with holding := none },
        inflight := none } (.handle i) = { s with
        log := s.log ++ [⟨s.log.length, f.kind, b⟩],
        fil := setAt (fun j => (s.fil j).map (offer p.kind ⟨s.log.length, f.kind, b⟩ (r.contains j))) i
          { f with buf := f.buf ++ is },
        pub := setAt (setAt s.pub c { p with holding := some ⟨s.log.length, f.kind, b⟩ }) c
          { p with holding := none },
        inflight := none } := by
    show handle i _ = _
    unfold handle
    dsimp only
    rw [hoff]
    dsimp only
    rw [if_pos hw.running]
    have hh : handled { f with holding := some ⟨s.log.length, f.kind, b⟩ } ⟨s.log.length, f.kind, b⟩ =
        { f with buf := f.buf ++ is } := by
      unfold handled
      have hn' : wanted { f with holding := some ⟨s.log.length, f.kind, b⟩ } ⟨s.log.length, f.kind, b⟩ =
        some is := hn
      rw [hn']
      dsimp only
      rw [if_pos hw.listed]
      congr 1
      exact hw.holding.symm
    rw [hh]
  simp only [List.foldl_cons, List.foldl_nil]
  have g1 := (step_up cap hw.up _).trans h1
  have g2 := (step_up cap (by exact hw.up) _).trans h2
  have g3 := (step_up cap (by exact hw.up) _).trans h3
  have g4 := (step_up cap (by exact hw.up) _).trans h4
  rw [g1, g2, g3, g4]
  exact ⟨{ p with holding := none }, if_pos rfl, hw.listed, hw.running, hw.holding, hw.subscribed,
    hw.chan, if_pos rfl, hw.kind, hw.opened, rfl, rfl, hw.up⟩

end Poll
