import Verif.Rpc.Poll

/-!
# Polling filters: what never changes, and who may close a topic
-/

namespace Poll

theorem setAt_same (m : Nat → Option α) (i : Nat) (a : α) : setAt m i a i = some a := if_pos rfl

theorem setAt_ne {m : Nat → Option α} {i j : Nat} {a : α} (h : j ≠ i) : setAt m i a j = m j := if_neg h

theorem setAt_some {m : Nat → Option α} {i j : Nat} {a b : α} (h : setAt m i a j = some b) :
    (j = i ∧ b = a) ∨ (j ≠ i ∧ m j = some b) := by
  by_cases hj : j = i
  · subst hj
    rw [setAt_same] at h
    exact Or.inl ⟨rfl, (Option.some.inj h).symm⟩
  · rw [setAt_ne hj] at h
    exact Or.inr ⟨hj, h⟩

theorem setKind_same (m : Kind → α) (k : Kind) (a : α) : setKind m k a k = a := if_pos rfl

theorem setKind_ne {m : Kind → α} {k j : Kind} {a : α} (h : j ≠ k) : setKind m k a j = m j := if_neg h

/-- What stays of a filter. -/
structure Keeps (f f' : Fil) : Prop where
  kind : f'.kind = f.kind
  crit : f'.crit = f.crit
  opener : f'.opener = f.opener
  removed : f.removed = true → f'.removed = true
  listed : f'.listed = true → f.listed = true

theorem Keeps.refl (f : Fil) : Keeps f f := ⟨rfl, rfl, rfl, id, id⟩

/-- Filters stay, with what stays of them. -/
def Grows (s s' : State) : Prop := ∀ i f, s.fil i = some f → ∃ f', s'.fil i = some f' ∧ Keeps f f'

theorem Grows.refl (s : State) : Grows s s := fun _ f h => ⟨f, h, Keeps.refl f⟩

theorem Grows.of_eq {s s' : State} (h : s'.fil = s.fil) : Grows s s' :=
  fun _ f hf => ⟨f, by rw [h]; exact hf, Keeps.refl f⟩

theorem Grows.set {s s' : State} {i : Nat} {f f' : Fil} (hf : s.fil i = some f) (hk : Keeps f f')
    (h : s'.fil = setAt s.fil i f') : Grows s s' := by
  intro j g hg
  rw [h]
  by_cases hj : j = i
  · subst hj
    rw [hf] at hg
    cases hg
    exact ⟨f', setAt_same _ _ _, hk⟩
  · exact ⟨g, by rw [setAt_ne hj]; exact hg, Keeps.refl g⟩

theorem Grows.map {s s' : State} {φ : Nat → Fil → Fil} (hk : ∀ i f, Keeps f (φ i f))
    (h : s'.fil = fun i => (s.fil i).map (φ i)) : Grows s s' := by
  intro j g hg
  rw [h]
  exact ⟨φ j g, by dsimp only; rw [hg]; rfl, hk j g⟩

theorem keeps_offer (k : Kind) (e : Ev) (r : Bool) (f : Fil) : Keeps f (offer k e r f) := by
  unfold offer
  split <;> exact ⟨rfl, rfl, rfl, id, id⟩

theorem keeps_shut (k : Kind) (f : Fil) : Keeps f (shut k f) := by
  unfold shut
  split <;> exact ⟨rfl, rfl, rfl, id, id⟩

theorem keeps_handled (f : Fil) (e : Ev) : Keeps f (handled f e) := by
  unfold handled
  split
  · exact ⟨rfl, rfl, rfl, id, id⟩
  · split <;> exact ⟨rfl, rfl, rfl, id, id⟩

/-- Filters have the numbers given out so far. -/
def Bounded (s : State) : Prop := ∀ i, s.next ≤ i → s.fil i = none

theorem Bounded.lt {s : State} (h : Bounded s) {i : Nat} {f : Fil} (hf : s.fil i = some f) : i < s.next := by
  rcases Nat.lt_or_ge i s.next with h1 | h1
  · exact h1
  · rw [h i h1] at hf
    cases hf

theorem Bounded.set {s : State} (h : Bounded s) {i : Nat} {f f' : Fil} (hf : s.fil i = some f)
    {j : Nat} (hj : s.next ≤ j) : setAt s.fil i f' j = none := by
  rw [setAt_ne (by have := h.lt hf; omega)]
  exact h j hj

/-- The ways `create` can end. -/
theorem create_cases (cap : Nat) (k : Kind) (c : Crit) (ok : Bool) (s : State) :
    create cap k c ok s = s ∨
    (count s < cap ∧ accepts k c = true ∧ s.topics k = true ∧ create cap k c ok s =
      { s with fil := setAt s.fil s.next (newFil k c false), next := s.next + 1 }) ∨
    (count s < cap ∧ accepts k c = true ∧ s.topics k = false ∧ create cap k c ok s =
      { s with
        fil := setAt s.fil s.next (newFil k c true), next := s.next + 1,
        pub := setAt s.pub s.nextPub ⟨k, none, false, false⟩, nextPub := s.nextPub + 1,
        topics := setKind s.topics k true, chan := setKind s.chan k (some s.nextPub) }) := by
  unfold create
  by_cases h1 : count s ≥ cap
  · rw [if_pos h1]
    exact Or.inl rfl
  rw [if_neg h1]
  by_cases h2 : accepts k c = false
  · rw [if_pos h2]
    exact Or.inl rfl
  rw [if_neg h2]
  by_cases h3 : s.topics k = true
  · rw [if_pos h3]
    exact Or.inr (Or.inl ⟨by omega, by simpa using h2, h3, rfl⟩)
  rw [if_neg h3]
  by_cases h4 : ok = false
  · rw [if_pos h4]
    exact Or.inl rfl
  rw [if_neg h4]
  exact Or.inr (Or.inr ⟨by omega, by simpa using h2, by simpa using h3, rfl⟩)

/-- The ways a step of the loop that uninstalls can end. -/
inductive Uninstalled (s : State) (i : Nat) (f : Fil) : State → Prop
  | twice : f.errClosed = true → Uninstalled s i f { s with crashed := true }
  | used : f.errClosed = false → inUse s f.kind i = true → Uninstalled s i f
      { s with fil := setAt s.fil i { f with asked := false, indexed := false, errClosed := true } }
  | noTopic : f.errClosed = false → inUse s f.kind i = false →
      (s.chan f.kind = none ∨ ∃ c, s.chan f.kind = some c ∧ s.pub c = none) → Uninstalled s i f
      { s with fil := setAt s.fil i { f with asked := false, indexed := false, errClosed := true } }
  | closedTwice (c : Nat) (p : Pub) : f.errClosed = false → s.chan f.kind = some c →
      s.pub c = some p → p.closed = true → Uninstalled s i f
      { s with
        fil := setAt s.fil i { f with asked := false, indexed := false, errClosed := true },
        crashed := true }
  | closes (c : Nat) (p : Pub) : f.errClosed = false → inUse s f.kind i = false →
      s.chan f.kind = some c → s.pub c = some p → p.closed = false → Uninstalled s i f
      { s with
        fil := setAt s.fil i { f with asked := false, indexed := false, errClosed := true },
        pub := setAt s.pub c { p with closed := true },
        topics := setKind s.topics f.kind false, chan := setKind s.chan f.kind none }

theorem uninstall_cases {s : State} {i : Nat} {f : Fil} (hf : s.fil i = some f) (ha : f.asked = true) :
    Uninstalled s i f (uninstall i s) := by
  unfold uninstall
  rw [hf]
  dsimp only
  rw [if_neg (by rw [ha]; decide)]
  by_cases h1 : f.errClosed = true
  · rw [if_pos h1]
    exact .twice h1
  rw [if_neg h1]
  have h1' : f.errClosed = false := by simpa using h1
  by_cases h2 : inUse s f.kind i = true
  · rw [if_pos h2]
    exact .used h1' h2
  rw [if_neg h2]
  have h2' : inUse s f.kind i = false := by simpa using h2
  cases hc : s.chan f.kind with
  | none => exact .noTopic h1' h2' (Or.inl hc)
  | some c =>
    cases hp : s.pub c with
    | none =>
      dsimp only
      rw [hp]
      exact .noTopic h1' h2' (Or.inr ⟨c, hc, hp⟩)
    | some p =>
      dsimp only
      rw [hp]
      dsimp only
      by_cases h3 : p.closed = true
      · rw [if_pos h3]
        exact .closedTwice c p h1' hc hp h3
      · rw [if_neg h3]
        exact .closes c p h1' h2' hc hp (by simpa using h3)

theorem uninstall_idle {s : State} {i : Nat} (h : ∀ f, s.fil i = some f → f.asked = false) :
    uninstall i s = s := by
  unfold uninstall
  cases hf : s.fil i with
  | none => rfl
  | some f =>
    dsimp only
    rw [if_pos (h f hf)]

/-- All that a step can do. -/
inductive Move (cap : Nat) (s : State) : State → Prop
  | same : Move cap s s
  | joined (k : Kind) (c : Crit) : count s < cap → accepts k c = true → s.topics k = true →
      Move cap s { s with fil := setAt s.fil s.next (newFil k c false), next := s.next + 1 }
  | opened (k : Kind) (c : Crit) : count s < cap → accepts k c = true → s.topics k = false →
      Move cap s
      { s with
        fil := setAt s.fil s.next (newFil k c true), next := s.next + 1,
        pub := setAt s.pub s.nextPub ⟨k, none, false, false⟩, nextPub := s.nextPub + 1,
        topics := setKind s.topics k true, chan := setKind s.chan k (some s.nextPub) }
  | unheard (k : Kind) (b : Body) : s.inflight = none → s.chan k = none →
      Move cap s { s with log := s.log ++ [⟨s.log.length, k, b⟩] }
  | heard (k : Kind) (b : Body) (c : Nat) : s.inflight = none → s.chan k = some c →
      Move cap s { s with
        log := s.log ++ [⟨s.log.length, k, b⟩], inflight := some (c, ⟨s.log.length, k, b⟩) }
  | sendFails (c : Nat) (e : Ev) (p : Pub) : s.inflight = some (c, e) → s.pub c = some p →
      p.closed = true → Move cap s { s with crashed := true }
  | sent (c : Nat) (e : Ev) (p : Pub) : s.inflight = some (c, e) → s.pub c = some p →
      p.closed = false → p.holding = none →
      Move cap s { s with pub := setAt s.pub c { p with holding := some e }, inflight := none }
  | dropped : Move cap s { s with inflight := none }
  | published (c : Nat) (p : Pub) (e : Ev) (r : List Nat) : s.pub c = some p → p.holding = some e →
      Move cap s { s with
        fil := fun i => (s.fil i).map (offer p.kind e (r.contains i)),
        pub := setAt s.pub c { p with holding := none } }
  | ended (c : Nat) (p : Pub) : s.pub c = some p → p.closed = true → p.holding = none →
      Move cap s { s with
        fil := fun i => (s.fil i).map (shut p.kind),
        pub := setAt s.pub c { p with ended := true },
        topics := setKind s.topics p.kind false }
  | handled (i : Nat) (f : Fil) (e : Ev) : s.fil i = some f → f.holding = some e → f.running = true →
      Move cap s { s with fil := setAt s.fil i (handled f e) }
  | chEnded (i : Nat) (f : Fil) : s.fil i = some f → f.holding = none → f.chClosed = true →
      Move cap s { s with fil := setAt s.fil i { f with listed := false, running := false } }
  | spun (i : Nat) (f : Fil) : s.fil i = some f → f.errClosed = true → f.kind = .pending →
      Move cap s { s with fil := setAt s.fil i { f with listed := false } }
  | errEnded (i : Nat) (f : Fil) : s.fil i = some f → f.holding = none → f.errClosed = true →
      Move cap s { s with
        fil := setAt s.fil i { f with listed := false, running := false, subscribed := false } }
  | removed (i : Nat) (f : Fil) : s.fil i = some f → f.listed = true →
      Move cap s { s with
        fil := setAt s.fil i { f with listed := false, asked := true, removed := true } }
  | uninstalled (i : Nat) (f : Fil) (s' : State) : s.fil i = some f → f.asked = true →
      Uninstalled s i f s' → Move cap s s'
  | polled (i : Nat) (f : Fil) : s.fil i = some f → f.listed = true →
      Move cap s { s with fil := setAt s.fil i { f with buf := [], got := f.got ++ f.buf } }

theorem act_moves (cap : Nat) (s : State) (o : Op) : Move cap s (act cap s o) := by
  cases o with
  | create k c ok =>
    show Move cap s (create cap k c ok s)
    rcases create_cases cap k c ok s with h | ⟨h1, h2, h3, h⟩ | ⟨h1, h2, h3, h⟩
    · rw [h]
      exact .same
    · rw [h]
      exact .joined k c h1 h2 h3
    · rw [h]
      exact .opened k c h1 h2 h3
  | emit k b =>
    show Move cap s (emit k b s)
    unfold emit
    split
    · exact .same
    · rename_i hi
      dsimp only
      split
      · rename_i hc
        have := Move.unheard (cap := cap) (s := s) k b hi hc
        exact this
      · rename_i c hc
        exact Move.heard (cap := cap) (s := s) k b c hi hc
  | send =>
    show Move cap s (send s)
    unfold send
    split
    · exact .same
    · rename_i c e hi
      split
      · exact .same
      · rename_i p hp
        split
        · rename_i h
          exact .sendFails c e p hi hp h
        · rename_i h
          split
          · exact .same
          · rename_i hh
            exact .sent c e p hi hp (by simpa using h) hh
  | drop => exact .dropped
  | publish c r =>
    show Move cap s (publish c r s)
    unfold publish
    split
    · exact .same
    · rename_i p hp
      split
      · exact .same
      · rename_i e he
        exact .published c p e r hp he
  | pubEnd c =>
    show Move cap s (pubEnd c s)
    unfold pubEnd
    split
    · exact .same
    · rename_i p hp
      split
      · rename_i h
        exact .ended c p hp h.1 h.2.2
      · exact .same
  | handle i =>
    show Move cap s (handle i s)
    unfold handle
    split
    · exact .same
    · rename_i f hf
      split
      · exact .same
      · rename_i e he
        split
        · rename_i h
          exact .handled i f e hf he h
        · exact .same
  | chEnd i =>
    show Move cap s (chEnd i s)
    unfold chEnd
    split
    · exact .same
    · rename_i f hf
      split
      · rename_i h
        exact .chEnded i f hf h.2.1 h.2.2
      · exact .same
  | errEnd i =>
    show Move cap s (errEnd i s)
    unfold errEnd
    split
    · exact .same
    · rename_i f hf
      split
      · rename_i h
        split
        · rename_i hk
          exact .spun i f hf h.2.2 hk
        · exact .errEnded i f hf h.2.1 h.2.2
      · exact .same
  | remove i =>
    show Move cap s (remove i s)
    unfold remove
    split
    · exact .same
    · rename_i f hf
      split
      · rename_i h
        exact .removed i f hf h
      · exact .same
  | uninstall i =>
    show Move cap s (uninstall i s)
    cases hf : s.fil i with
    | none =>
      rw [uninstall_idle (fun f h => by rw [hf] at h; cases h)]
      exact .same
    | some f =>
      cases ha : f.asked with
      | false =>
        rw [uninstall_idle (fun g h => by rw [hf] at h; cases h; exact ha)]
        exact .same
      | true => exact .uninstalled i f _ hf ha (uninstall_cases hf ha)
  | poll i =>
    show Move cap s (poll i s)
    unfold poll
    split
    · exact .same
    · rename_i f hf
      split
      · rename_i h
        exact .polled i f hf h
      · exact .same

theorem step_moves (cap : Nat) (s : State) (o : Op) : Move cap s (step cap s o) := by
  unfold step
  split
  · exact .same
  · exact act_moves cap s o

/-- A property that every move keeps holds after every schedule. -/
theorem run_induction {P : State → Prop} (cap : Nat) (h0 : P init)
    (hs : ∀ s s', P s → Move cap s s' → P s') (ops : List Op) : P (run cap ops) := by
  unfold run
  have : ∀ s, P s → P (ops.foldl (step cap) s) := by
    induction ops with
    | nil => exact fun s h => h
    | cons o os ih => exact fun s h => ih _ (hs s _ h (step_moves cap s o))
  exact this init h0

theorem keeps_uninstalled (f : Fil) :
    Keeps f { f with asked := false, indexed := false, errClosed := true } :=
  ⟨rfl, rfl, rfl, id, id⟩

theorem grows_move {cap : Nat} {s s' : State} (hb : Bounded s) (h : Move cap s s') : Grows s s' := by
  have hn : ∀ (s' : State) g, s'.fil = setAt s.fil s.next g → Grows s s' := by
    intro s' g h i f hf
    refine ⟨f, ?_, Keeps.refl f⟩
    rw [h, setAt_ne (by have := hb.lt hf; omega)]
    exact hf
  cases h with
  | same => exact Grows.refl s
  | joined => exact hn _ _ rfl
  | opened => exact hn _ _ rfl
  | unheard => exact Grows.of_eq rfl
  | heard => exact Grows.of_eq rfl
  | sendFails => exact Grows.of_eq rfl
  | sent => exact Grows.of_eq rfl
  | dropped => exact Grows.of_eq rfl
  | published c p e r => exact Grows.map (fun i f => keeps_offer p.kind e (r.contains i) f) rfl
  | ended c p => exact Grows.map (fun _ f => keeps_shut p.kind f) rfl
  | handled i f e hf => exact Grows.set hf (keeps_handled f e) rfl
  | chEnded i f hf =>
    refine Grows.set hf (f' := { f with listed := false, running := false }) ?_ rfl
    exact ⟨rfl, rfl, rfl, id, (fun h => nomatch h)⟩
  | spun i f hf =>
    refine Grows.set hf (f' := { f with listed := false }) ?_ rfl
    exact ⟨rfl, rfl, rfl, id, (fun h => nomatch h)⟩
  | errEnded i f hf =>
    refine Grows.set hf (f' := { f with listed := false, running := false, subscribed := false }) ?_ rfl
    exact ⟨rfl, rfl, rfl, id, (fun h => nomatch h)⟩
  | removed i f hf =>
    refine Grows.set hf (f' := { f with listed := false, asked := true, removed := true }) ?_ rfl
    exact ⟨rfl, rfl, rfl, (fun _ => rfl), (fun h => nomatch h)⟩
  | uninstalled i f s' hf ha hu =>
    cases hu with
    | twice => exact Grows.of_eq rfl
    | used => exact Grows.set hf (keeps_uninstalled f) rfl
    | noTopic => exact Grows.set hf (keeps_uninstalled f) rfl
    | closedTwice => exact Grows.set hf (keeps_uninstalled f) rfl
    | closes => exact Grows.set hf (keeps_uninstalled f) rfl
  | polled i f hf =>
    refine Grows.set hf (f' := { f with buf := [], got := f.got ++ f.buf }) ?_ rfl
    exact ⟨rfl, rfl, rfl, id, id⟩

theorem bounded_move {cap : Nat} {s s' : State} (hb : Bounded s) (h : Move cap s s') : Bounded s' := by
  have hn : ∀ (j : Nat) g, s.next + 1 ≤ j → setAt s.fil s.next g j = none := by
    intro j g hj
    rw [setAt_ne (by omega)]
    exact hb j (by omega)
  have hm : ∀ (j : Nat) (φ : Fil → Fil), s.next ≤ j → (s.fil j).map φ = none := by
    intro j φ hj
    rw [hb j hj]
    rfl
  cases h with
  | same => exact hb
  | joined => exact fun j hj => hn j _ hj
  | opened => exact fun j hj => hn j _ hj
  | unheard => exact hb
  | heard => exact hb
  | sendFails => exact hb
  | sent => exact hb
  | dropped => exact hb
  | published => exact fun j hj => hm j _ hj
  | ended => exact fun j hj => hm j _ hj
  | handled i f e hf => exact fun j hj => hb.set hf hj
  | chEnded i f hf => exact fun j hj => hb.set hf hj
  | spun i f hf => exact fun j hj => hb.set hf hj
  | errEnded i f hf => exact fun j hj => hb.set hf hj
  | removed i f hf => exact fun j hj => hb.set hf hj
  | uninstalled i f s' hf ha hu =>
    cases hu with
    | twice => exact hb
    | used => exact fun j hj => hb.set hf hj
    | noTopic => exact fun j hj => hb.set hf hj
    | closedTwice => exact fun j hj => hb.set hf hj
    | closes => exact fun j hj => hb.set hf hj
  | polled i f hf => exact fun j hj => hb.set hf hj

theorem bounded_init : Bounded init := fun _ _ => rfl

end Poll
