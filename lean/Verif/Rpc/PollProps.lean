import Verif.Rpc.PollLemmas3

/-!
# Polling filters give what happened, but one client can take them from all others
-/

namespace Poll

/-- No condition on logs. -/
def anyLog : Crit := ⟨none, none, ⟨[], []⟩⟩

/-- One event reaches the filters that wait. -/
def reaches (k : Kind) (b : Body) (c : Nat) (is : List Nat) : List Op :=
  [.emit k b, .send, .publish c is] ++ is.map .handle

/-- Two filters of blocks and one of logs, and three events. -/
def demo : List Op :=
  [.create .blocks anyLog true, .create .logs ⟨some 0, none, ⟨[10], []⟩⟩ true, .create .blocks anyLog true] ++
  reaches .blocks (.header 71) 0 [0, 2] ++ [.poll 0] ++
  reaches .logs (.txLogs (some [[⟨1, 10, [5], 0⟩, ⟨1, 11, [5], 1⟩, ⟨1, 10, [6], 2⟩]])) 1 [1] ++
  reaches .blocks (.header 72) 0 [0, 2]

/-- **Nothing false, nothing twice.** After every schedule, what the polls of a filter returned so far
and what waits for the next poll is what the filter should give for some events that the node
reported, all of the kind of the filter, and none of them twice. -/
theorem polls_sound (cap : Nat) (ops : List Op) (i : Nat) (f : Fil) (hf : (run cap ops).fil i = some f) :
    ∃ es : List Ev, Told f.crit es (f.got ++ f.buf) ∧ (es.map (·.no)).Nodup ∧
      ∀ e ∈ es, Reported (run cap ops) e ∧ e.kind = f.kind := by
  obtain ⟨seen, hs⟩ := course_run cap ops
  refine ⟨seen i, hs.flow.told i f hf, ?_, fun e he => hs.flow.src i f hf e (Or.inl he)⟩
  unfold List.Nodup
  rw [List.pairwise_map]
  exact hs.flow.once i f hf

example : ((run 5 demo).fil 0).map (fun f => (f.got, f.buf)) = some ([.hash 71], [.hash 72]) ∧
    ((run 5 demo).fil 1).map (fun f => (f.got, f.buf)) =
      some ([], [.log ⟨1, 10, [5], 0⟩, .log ⟨1, 10, [6], 2⟩]) ∧
    ((run 5 demo).fil 2).map (fun f => (f.got, f.buf)) = some ([], [.hash 71, .hash 72]) := by
  decide +kernel

/-- **In order, as far as it goes.** The full property is that polls return events in the order in
which the node reported them. It is proved as long as no filter of the kind that opened the topic was
removed; `late_and_out_of_order` shows that it fails after that. -/
theorem in_order_partial (cap : Nat) (ops : List Op) (i : Nat) (f : Fil)
    (hf : (run cap ops).fil i = some f) (hn : ¬ Gone (run cap ops) f.kind) :
    ∃ es : List Ev, Told f.crit es (f.got ++ f.buf) ∧ es.Pairwise (fun d e => d.no < e.no) ∧
      ∀ e ∈ es, Reported (run cap ops) e ∧ e.kind = f.kind := by
  obtain ⟨seen, hs⟩ := course_run cap ops
  have ht := topics_run cap ops
  have hc : Calm (run cap ops) f.kind := by
    intro c p hp hk
    cases hcl : p.closed with
    | false => rfl
    | true => exact absurd (hk ▸ ht.closed c p hp hcl) hn
  exact ⟨seen i, hs.flow.told i f hf, (hs.line f.kind hc).sorted i f hf rfl,
    fun e he => hs.flow.src i f hf e (Or.inl he)⟩

example : ¬ Gone (run 5 demo) .blocks := by
  rintro ⟨j, f, hf, _, _, hr⟩
  have hb : Bounded (run 5 demo) := (topics_run 5 demo).bounded
  have hlt : j < 3 := hb.lt hf
  have h : ∀ j < 3, ((run 5 demo).fil j).map (·.removed) = some false := by decide +kernel
  have := h j hlt
  rw [hf] at this
  have h2 : some f.removed = some false := this
  rw [hr] at h2
  cases h2

/-- The first filter of blocks is removed while an event is being published, and another filter takes
its place. -/
def lateOps : List Op :=
  [.create .blocks anyLog true, .emit .blocks (.header 71), .send, .remove 0, .uninstall 0,
   .create .blocks anyLog true] ++ reaches .blocks (.header 72) 1 [1] ++ [.publish 0 [1], .handle 1]

/-- Out of order: a filter gives a block reported before it was created, after a later one. -/
theorem late_and_out_of_order :
    ((run 5 lateOps).fil 1).map (·.buf) = some [.hash 72, .hash 71] ∧
    (run 5 lateOps).log.map (·.body) = [.header 71, .header 72] := by decide +kernel

/-- A schedule in which every event has reached filter `i` before the next is reported. -/
def unhurried (k : Kind) (c i : Nat) (r : List Nat) (bs : List Body) : List Op :=
  bs.flatMap (fun b => [.emit k b, .send, .publish c r, .handle i])

/-- **Nothing missed, as far as it goes.** The full property is that a filter gives every event
reported while it exists. It is proved for filters that work when each event reaches the filter
before the next is reported, and no response is undecodable; `a_burst_loses` shows that it fails
otherwise. -/
theorem misses_nothing_partial (cap : Nat) (s : State) (i c : Nat) (f : Fil) (p : Pub)
    (hw : Working s i c f p) (r : List Nat) (hr : i ∈ r) (bs : List Body)
    (hb : ∀ b ∈ bs, b ≠ .txLogs none) :
    ∃ es items p', es.map (·.body) = bs ∧ Told f.crit es items ∧
      Working ((unhurried f.kind c i r bs).foldl (step cap) s) i c { f with buf := f.buf ++ items } p' := by
  induction bs generalizing s f p with
  | nil => exact ⟨[], [], p, rfl, .nil, by rw [List.append_nil]; exact hw⟩
  | cons b bs ih =>
    have hb0 : b ≠ .txLogs none := hb b List.mem_cons_self
    have hwant : ∃ is, wanted f ⟨s.log.length, f.kind, b⟩ = some is := by
      unfold wanted
      split
      · rename_i h
        exact absurd h hb0
      all_goals exact ⟨_, rfl⟩
    obtain ⟨is, his⟩ := hwant
    obtain ⟨p1, hw1⟩ := working_event cap hw b r hr his
    obtain ⟨es, items, p', h1, h2, h3⟩ := ih _ _ p1 hw1 (fun b' h => hb b' (List.mem_cons_of_mem _ h))
    refine ⟨⟨s.log.length, f.kind, b⟩ :: es, is ++ items, p', ?_, .cons (wanted_news his) h2, ?_⟩
    · rw [List.map_cons, h1]
    · have h4 : { f with buf := f.buf ++ (is ++ items) } =
          { ({ f with buf := f.buf ++ is } : Fil) with buf := f.buf ++ is ++ items } := by
        rw [List.append_assoc]
      rw [h4]
      unfold unhurried
      rw [List.flatMap_cons, List.foldl_append]
      exact h3

/-- A new filter works, if nothing is on its way. -/
theorem new_filter_works (cap : Nat) (ops : List Op) (k : Kind) (c : Crit)
    (hcap : count (run cap ops) < cap) (ha : accepts k c = true)
    (hi : (run cap ops).inflight = none) (hq : ∀ d q, (run cap ops).pub d = some q → q.kind = k → q.holding = none)
    (hup : (run cap ops).crashed = false) :
    ∃ d p f, Working (run cap (ops ++ [.create k c true])) (run cap ops).next d f p ∧ f.kind = k ∧ f.crit = c ∧
      f.buf = [] := by
  have hrun : run cap (ops ++ [.create k c true]) = create cap k c true (run cap ops) := by
    have h := step_up cap hup (.create k c true)
    unfold run at h ⊢
    rw [List.foldl_append]
    exact h
  rw [hrun]
  have ht := topics_run cap ops
  cases htk : (run cap ops).topics k with
  | true =>
    have hcr : create cap k c true (run cap ops) = { run cap ops with
        fil := setAt (run cap ops).fil (run cap ops).next (newFil k c false), next := (run cap ops).next + 1 } := by
      unfold create
      rw [if_neg (by omega), if_neg (by rw [ha]; decide), if_pos htk]
    rw [hcr]
    cases hch : (run cap ops).chan k with
    | none => exact absurd hch (topic_chan_run cap ops k htk)
    | some d =>
      obtain ⟨⟨p, hp, hk, hcl⟩, _⟩ := ht.chan k d hch
      exact ⟨d, p, newFil k c false, ⟨if_pos rfl, rfl, rfl, rfl, rfl, hch, hp, hk, hcl, hq d p hp hk, hi, hup⟩,
        rfl, rfl, rfl⟩
  | false =>
    have hcr : create cap k c true (run cap ops) = { run cap ops with
        fil := setAt (run cap ops).fil (run cap ops).next (newFil k c true), next := (run cap ops).next + 1,
        pub := setAt (run cap ops).pub (run cap ops).nextPub ⟨k, none, false, false⟩,
        nextPub := (run cap ops).nextPub + 1,
        topics := setKind (run cap ops).topics k true,
        chan := setKind (run cap ops).chan k (some (run cap ops).nextPub) } := by
      unfold create
      rw [if_neg (by omega), if_neg (by rw [ha]; decide), if_neg (by rw [htk]; decide), if_neg (by decide)]
    rw [hcr]
    exact ⟨(run cap ops).nextPub, ⟨k, none, false, false⟩, newFil k c true,
      ⟨if_pos rfl, rfl, rfl, rfl, rfl, if_pos rfl, if_pos rfl, rfl, rfl, rfl, hi, hup⟩, rfl, rfl, rfl⟩

example : count (run 5 demo) < 5 ∧ accepts .blocks anyLog = true ∧ (run 5 demo).inflight = none ∧
    ((run 5 demo).pub 0).map (·.holding) = some none ∧ (run 5 demo).crashed = false ∧
    ((run 5 (demo ++ [.create .blocks anyLog true] ++
      unhurried .blocks 0 3 [3] [.header 73, .header 74])).fil 3).map (·.buf) =
      some [.hash 73, .hash 74] := by decide +kernel

/-- Two blocks in quick succession. -/
def burstOps : List Op :=
  [.create .blocks anyLog true, .emit .blocks (.header 71), .send, .publish 0 [0],
   .emit .blocks (.header 72), .send, .publish 0 [0], .handle 0]

/-- A burst loses events: the second is published while the filter still handles the first, and is
gone for good, although the filter is in order again. -/
theorem a_burst_loses :
    ((run 5 burstOps).fil 0).map (fun f => (f.listed, f.running, f.holding, f.buf)) =
      some (true, true, none, [.hash 71]) ∧
    (run 5 burstOps).log.map (·.body) = [.header 71, .header 72] ∧ (run 5 burstOps).inflight = none ∧
    ((run 5 burstOps).pub 0).map (·.holding) = some none := by decide +kernel

/-- **Who can take a filter away.** A filter that is no longer in the table was uninstalled or timed
out itself, or some filter of its kind that opened the topic was. -/
theorem lost_only_with_an_opener (cap : Nat) (ops : List Op) (i : Nat) (f : Fil)
    (hf : (run cap ops).fil i = some f) (hl : f.listed = false) :
    f.removed = true ∨ ∃ j g, (run cap ops).fil j = some g ∧ g.kind = f.kind ∧ g.opener = true ∧
      g.removed = true :=
  ((topics_run cap ops).fils i f hf).unlisted hl

/-- Two clients, and the first uninstalls its filter. -/
def otherOps : List Op :=
  [.create .blocks anyLog true, .create .blocks anyLog true, .remove 0, .uninstall 0, .pubEnd 0, .chEnd 1]

example : ((run 5 otherOps).fil 1).map (fun f => (f.listed, f.removed, f.opener)) = some (false, false, false) ∧
    ((run 5 otherOps).fil 0).map (fun f => (f.removed, f.opener)) = some (true, true) := by decide +kernel

/-- **Others are not safe.** The first client uninstalls its filter, or stops polling it; the filter
of the second is gone too, with all that it would have given. -/
theorem uninstalling_takes_others_along :
    pollResult 1 (run 5 otherOps) = none ∧
    pollResult 1 (run 5 [.create .blocks anyLog true, .create .blocks anyLog true]) = some [] := by
  decide +kernel

/-- A filter created after another was uninstalled can be lost as well: the goroutine that published
for the old one closes the channel of the new one. -/
theorem a_later_filter_is_lost_too :
    pollResult 1 (run 5 [.create .blocks anyLog true, .remove 0, .uninstall 0,
      .create .blocks anyLog true]) = some [] ∧
    pollResult 1 (run 5 [.create .blocks anyLog true, .remove 0, .uninstall 0,
      .create .blocks anyLog true, .pubEnd 0, .chEnd 1]) = none := by decide +kernel

/-- **Others are safe, as far as it goes.** The full property is that uninstalling a filter, or its
time-out, does not affect other filters. It is proved for filters that did not open the topic: all
three steps of taking such a filter away leave every other filter, the topics and the goroutines that
publish as they are. `uninstalling_takes_others_along` shows that it fails for the one that did. -/
theorem others_stay_partial (cap : Nat) (ops : List Op) (i : Nat) (f : Fil)
    (hf : (run cap ops).fil i = some f) (ho : f.opener = false) (o : Op)
    (h : o = .remove i ∨ o = .uninstall i ∨ o = .errEnd i) :
    (∀ j, j ≠ i → (run cap (ops ++ [o])).fil j = (run cap ops).fil j) ∧
    (run cap (ops ++ [o])).topics = (run cap ops).topics ∧ (run cap (ops ++ [o])).chan = (run cap ops).chan ∧
    (run cap (ops ++ [o])).pub = (run cap ops).pub ∧ (run cap (ops ++ [o])).crashed = (run cap ops).crashed := by
  have hrun : run cap (ops ++ [o]) = step cap (run cap ops) o := by
    unfold run
    rw [List.foldl_append]
    rfl
  rw [hrun]
  have ht := topics_run cap ops
  have hset : ∀ (g : Fil), ∀ j, j ≠ i → setAt (run cap ops).fil i g j = (run cap ops).fil j :=
    fun g j hj => setAt_ne hj
  unfold step
  split
  · exact ⟨fun _ _ => rfl, rfl, rfl, rfl, rfl⟩
  rcases h with rfl | rfl | rfl
  · show (∀ j, j ≠ i → (remove i (run cap ops)).fil j = _) ∧ _
    simp only [act]
    unfold remove
    rw [hf]
    dsimp only
    split
    · exact ⟨hset _, rfl, rfl, rfl, rfl⟩
    · exact ⟨fun _ _ => rfl, rfl, rfl, rfl, rfl⟩
  · simp only [act]
    cases ha : f.asked with
    | false =>
      rw [uninstall_idle (fun g h => by rw [hf] at h; cases h; exact ha)]
      exact ⟨fun _ _ => rfl, rfl, rfl, rfl, rfl⟩
    | true =>
      have hfit := (ht.fils i f hf).fits
      have hu := uninstall_cases hf ha
      generalize uninstall i (run cap ops) = s' at hu ⊢
      cases hu with
      | twice h1 =>
        have h2 := (hfit.err h1).2
        rw [ha] at h2
        cases h2
      | used => exact ⟨hset _, rfl, rfl, rfl, rfl⟩
      | noTopic => exact ⟨hset _, rfl, rfl, rfl, rfl⟩
      | closedTwice c p h1 h2 h3 h4 =>
        obtain ⟨⟨q, hq, _, h5⟩, _⟩ := ht.chan _ c h2
        rw [h3] at hq
        cases hq
        rw [h4] at h5
        cases h5
      | closes c p h1 h2 h3 h4 h5 =>
        obtain ⟨_, j, g, hg, hgk, hgi⟩ := ht.chan _ c h3
        have hji := inUse_false ht.bounded h2 hg hgk hgi
        subst hji
        rw [hf] at hg
        cases hg
        have := hfit.indexed hgi
        rw [ho] at this
        cases this
  · simp only [act]
    unfold errEnd
    rw [hf]
    dsimp only
    split
    · split
      · exact ⟨hset _, rfl, rfl, rfl, rfl⟩
      · exact ⟨hset _, rfl, rfl, rfl, rfl⟩
    · exact ⟨fun _ _ => rfl, rfl, rfl, rfl, rfl⟩

example : ((run 5 demo).fil 2).map (·.opener) = some false ∧ ((run 5 demo).fil 0).map (·.opener) = some true ∧
    pollResult 0 (run 5 (demo ++ [.remove 2, .uninstall 2, .errEnd 2])) = some [.hash 72] ∧
    pollResult 2 (run 5 (demo ++ [.remove 2, .uninstall 2, .errEnd 2])) = none := by decide +kernel

/-- **When the node can crash.** The process panics only after a filter that opened a topic was
removed. -/
theorem crash_only_with_an_opener (cap : Nat) (ops : List Op) (h : (run cap ops).crashed = true) :
    ∃ j g, (run cap ops).fil j = some g ∧ g.opener = true ∧ g.removed = true := by
  obtain ⟨k, j, g, h1, _, h2, h3⟩ := (topics_run cap ops).crashed h
  exact ⟨j, g, h1, h2, h3⟩

/-- A filter is uninstalled between the moment the reading loop looks up the channel of the topic and
the moment it sends. -/
def crashOps : List Op :=
  [.create .blocks anyLog true, .emit .blocks (.header 71), .remove 0, .uninstall 0, .send]

/-- **The node crashes.** A single client that creates a filter and uninstalls it at the wrong moment
makes the reading loop send on a closed channel. -/
theorem uninstalling_can_crash : (run 5 crashOps).crashed = true := by decide +kernel

/-- **Limit.** There are never more filters than the limit. -/
theorem never_more_than_the_cap (cap : Nat) (ops : List Op) :
    (List.range (run cap ops).next).countP (fun i => (pollResult i (run cap ops)).isSome) ≤ cap := by
  have h : ∀ i, (pollResult i (run cap ops)).isSome = ((run cap ops).fil i).any (·.listed) := by
    intro i
    unfold pollResult
    cases (run cap ops).fil i with
    | none => rfl
    | some f =>
      dsimp only
      cases hl : f.listed with
      | true => rw [if_pos rfl]; exact hl.symm
      | false => rw [if_neg (by decide)]; exact hl.symm
  simp only [h]
  exact count_run cap ops

example : (run 2 demo).next = 2 ∧ (run 5 demo).next = 3 := by decide +kernel

/-- **Gone is gone.** Once a filter that existed is not found, no poll finds it again. -/
theorem gone_for_good (cap : Nat) (ops more : List Op) (i : Nat)
    (h : pollResult i (run cap ops) = none) (hx : ((run cap ops).fil i).isSome = true) :
    pollResult i (run cap (ops ++ more)) = none := by
  obtain ⟨f, hf⟩ := Option.isSome_iff_exists.1 hx
  have hl : f.listed = false := by
    unfold pollResult at h
    rw [hf] at h
    dsimp only at h
    cases hl : f.listed with
    | false => rfl
    | true =>
      rw [hl, if_pos rfl] at h
      cases h
  obtain ⟨f', hf', hk⟩ := grows_run (topics_run cap ops).bounded more hf (cap := cap)
  have hrun : run cap (ops ++ more) = more.foldl (step cap) (run cap ops) := by
    unfold run
    rw [List.foldl_append]
  rw [hrun]
  unfold pollResult
  rw [hf']
  dsimp only
  rw [if_neg]
  intro hl'
  rw [hk.listed hl'] at hl
  cases hl

example : pollResult 0 (run 5 otherOps) = none ∧
    ((run 5 otherOps).fil 0).isSome = true := by decide +kernel

/-- **Removed filters stop, as far as it goes.** The goroutine of a removed filter of logs or blocks
ends and gets no more events. That of a filter of pending transactions does not: it goes round and
round (`removed_pending_filters_spin`). -/
theorem removed_filters_stop_partial (s : State) (i : Nat) (f : Fil) (hf : s.fil i = some f)
    (hr : f.running = true) (hh : f.holding = none) (he : f.errClosed = true) (hk : f.kind ≠ .pending) :
    ∃ g, (errEnd i s).fil i = some g ∧ g.running = false ∧ g.subscribed = false ∧ g.listed = false := by
  unfold errEnd
  rw [hf]
  dsimp only
  rw [if_pos ⟨hr, hh, he⟩]
  split
  · rename_i h
    exact absurd h hk
  · exact ⟨_, setAt_same _ _ _, rfl, rfl, rfl⟩

/-- A filter of pending transactions that was not the first is uninstalled. -/
def spinOps : List Op :=
  [.create .pending anyLog true, .create .pending anyLog true, .remove 1, .uninstall 1]

example : ((run 5 (demo ++ [.remove 2, .uninstall 2])).fil 2).map
    (fun f => (f.running, f.holding, f.errClosed, f.kind)) = some (true, none, true, .blocks) := by
  decide +kernel

/-- **It spins.** However often the goroutine of that filter goes round, it still runs, still is
subscribed, and can go round again at once. -/
theorem removed_pending_filters_spin (n : Nat) :
    ((run 5 (spinOps ++ List.replicate n (.errEnd 1))).fil 1).map
      (fun f => (f.listed, f.running, f.subscribed, f.holding, f.errClosed)) =
    some (false, true, true, none, true) := by
  have h0 : ∃ f, (run 5 spinOps).fil 1 = some f ∧ (run 5 spinOps).crashed = false ∧ f.listed = false ∧ f.running = true ∧
      f.subscribed = true ∧ f.holding = none ∧ f.errClosed = true ∧ f.kind = .pending := by
    refine ⟨_, rfl, ?_⟩
    decide +kernel
  have key : ∀ (n : Nat) (s : State), (∃ f, s.fil 1 = some f ∧ s.crashed = false ∧ f.listed = false ∧ f.running = true ∧
      f.subscribed = true ∧ f.holding = none ∧ f.errClosed = true ∧ f.kind = .pending) →
      ((List.replicate n (Op.errEnd 1)).foldl (step 5) s).fil 1 = s.fil 1 := by
    intro n
    induction n with
    | zero => exact fun s _ => rfl
    | succ n ih =>
      rintro s ⟨f, h1, h2, h3, h4, h5, h6, h7, h8⟩
      have hstep : (step 5 s (.errEnd 1)).fil 1 = some f ∧ (step 5 s (.errEnd 1)).crashed = false := by
        rw [step_up 5 h2]
        show (errEnd 1 s).fil 1 = _ ∧ (errEnd 1 s).crashed = false
        unfold errEnd
        rw [h1]
        dsimp only
        rw [if_pos ⟨h4, h6, h7⟩, h8]
        dsimp only
        refine ⟨?_, h2⟩
        rw [setAt_same]
        cases f
        cases h3
        cases h8
        rfl
      rw [List.replicate_succ, List.foldl_cons, ih _ ⟨f, hstep.1, hstep.2, h3, h4, h5, h6, h7, h8⟩, hstep.1, h1]
  have hrun : run 5 (spinOps ++ List.replicate n (.errEnd 1)) =
      (List.replicate n (Op.errEnd 1)).foldl (step 5) (run 5 spinOps) := by
    unfold run
    rw [List.foldl_append]
  rw [hrun]
  obtain ⟨f, h1, h2, h3, h4, h5, h6, h7, h8⟩ := h0
  rw [key n (run 5 spinOps) ⟨f, h1, h2, h3, h4, h5, h6, h7, h8⟩, h1]
  show some (f.listed, f.running, f.subscribed, f.holding, f.errClosed) = _
  rw [h3, h4, h5, h6, h7]

/-- Logs of the second Ethereum message of a transaction are not given. -/
theorem second_message_not_given :
    ((run 5 ([.create .logs anyLog true] ++
      reaches .logs (.txLogs (some [[⟨1, 10, [], 0⟩], [⟨1, 10, [], 1⟩]])) 0 [0])).fil 0).map (·.buf) =
    some [.log ⟨1, 10, [], 0⟩] := by decide +kernel

/-- A response that cannot be decoded leaves a filter that polls find and that never gives anything
again. -/
theorem silent_after_an_undecodable_response :
    ((run 5 ([.create .logs anyLog true] ++ reaches .logs (.txLogs none) 0 [0] ++
      reaches .logs (.txLogs (some [[⟨1, 10, [], 0⟩]])) 0 [0])).fil 0).map
      (fun f => (f.listed, f.running, f.buf)) = some (true, false, []) := by decide +kernel

end Poll
