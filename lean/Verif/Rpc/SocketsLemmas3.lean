import Verif.Rpc.SocketsLemmas2

/-! # WebSocket connections: what a step does to a goroutine and a connection -/

namespace Sock

open LogQuery (Log Criteria)

/-- How a goroutine may change. -/
structure Later (g g' : Gor) : Prop where
  conn : g'.conn = g.conn
  sub : g'.sub = g.sub
  job : g'.job = g.job
  since : g'.since = g.since
  bus : g'.onBus = true → g.onBus = true
  till : ∀ u, g.onBus = false → g.till = some u → g'.till = some u
  stopped : g.running = false → g'.running = false

theorem Later.refl (g : Gor) : Later g g := ⟨rfl, rfl, rfl, rfl, id, fun _ _ h => h, id⟩

theorem Later.trans {a b c : Gor} (h : Later a b) (k : Later b c) : Later a c where
  conn := k.conn.trans h.conn
  sub := k.sub.trans h.sub
  job := k.job.trans h.job
  since := k.since.trans h.since
  bus := fun x => h.bus (k.bus x)
  till := fun u hb ht => k.till u (by
    cases hh : b.onBus with
    | false => rfl
    | true => rw [h.bus hh] at hb; cases hb) (h.till u hb ht)
  stopped := fun x => k.stopped (h.stopped x)

theorem later_unhook (n : Nat) (is : List Nat) (g : Gor) : Later g (unhook n is g) := by
  unfold unhook
  split
  · next h =>
    refine ⟨rfl, rfl, rfl, rfl, (fun hb => nomatch hb), fun u hb _ => ?_, id⟩
    rw [h.1] at hb
    cases hb
  · exact .refl g

theorem later_offer (e : Ev) (r : Bool) (g : Gor) : Later g (offer e r g) := by
  unfold offer
  split <;> exact ⟨rfl, rfl, rfl, rfl, id, fun _ _ h => h, id⟩

theorem map_at {m : Nat → Option Gor} {j : Nat} {g : Gor} (h : m j = some g) (f : Gor → Gor) :
    (m j).map f = some (f g) := by rw [h]; rfl

/-- A goroutine there is stays. -/
theorem gor_step {s : State} (hinv : Inv s) (o : Op) {j : Nat} {g : Gor} (h : s.gor j = some g) :
    ∃ g', (step s o).gor j = some g' ∧ Later g g' := by
  cases o with
  | connect => exact ⟨g, h, .refl g⟩
  | subscribe c w ok =>
    simp only [step]
    unfold subscribe
    cases s.conn c with
    | none => exact ⟨g, h, .refl g⟩
    | some k =>
      dsimp only
      split
      · exact ⟨g, (started hinv c w).old j g h, .refl g⟩
      · exact ⟨g, h, .refl g⟩
  | unsubscribe c i =>
    simp only [step]
    unfold unsubscribe
    cases s.conn c with
    | none => exact ⟨g, h, .refl g⟩
    | some k =>
      dsimp only
      split
      · split
        · exact ⟨_, map_at h _, later_unhook _ _ g⟩
        · exact ⟨g, h, .refl g⟩
      · exact ⟨g, h, .refl g⟩
  | reply c =>
    simp only [step]
    unfold reply
    cases s.conn c with
    | none => exact ⟨g, h, .refl g⟩
    | some k =>
      dsimp only
      cases k.owed <;> exact ⟨g, h, .refl g⟩
  | publish b r => exact ⟨_, map_at h _, later_offer _ _ g⟩
  | handle i =>
    simp only [step]
    unfold handle
    cases hi : s.gor i with
    | none => exact ⟨g, h, .refl g⟩
    | some a =>
      dsimp only
      cases a.holding with
      | none => exact ⟨g, h, .refl g⟩
      | some e =>
        dsimp only
        have key : ∀ a' : Gor, Later a a' → ∃ g', setAt s.gor i a' j = some g' ∧ Later g g' := by
          intro a' ha
          by_cases hj : j = i
          · subst hj
            rw [h] at hi
            injection hi with hi
            subst hi
            exact ⟨a', setAt_eq, ha⟩
          · exact ⟨g, (setAt_ne hj).trans h, .refl g⟩
        cases a.job.items e.body with
        | none => exact key _ ⟨rfl, rfl, rfl, rfl, id, fun _ _ x => x, fun _ => rfl⟩
        | some is =>
          dsimp only
          cases s.conn a.conn with
          | none => exact ⟨g, h, .refl g⟩
          | some k => exact key _ ⟨rfl, rfl, rfl, rfl, id, fun _ _ x => x, id⟩
  | down c =>
    simp only [step]
    unfold down
    cases s.conn c <;> exact ⟨g, h, .refl g⟩
  | readEnd c =>
    simp only [step]
    unfold readEnd
    cases s.conn c with
    | none => exact ⟨g, h, .refl g⟩
    | some k =>
      dsimp only
      split
      · exact ⟨_, map_at h _, later_unhook _ _ g⟩
      · exact ⟨g, h, .refl g⟩

theorem gor_steps {s : State} (hinv : Inv s) (ops : List Op) {j : Nat} {g : Gor} (h : s.gor j = some g) :
    ∃ g', (ops.foldl step s).gor j = some g' ∧ Later g g' := by
  induction ops generalizing s g with
  | nil => exact ⟨g, h, .refl g⟩
  | cons o ops ih =>
    obtain ⟨g1, h1, l1⟩ := gor_step hinv o h
    obtain ⟨g2, h2, l2⟩ := ih (inv_step hinv o) h1
    exact ⟨g2, h2, l1.trans l2⟩

/-- A goroutine that was not there is of a new subscription. -/
theorem gor_new {s : State} (hinv : Inv s) (o : Op) {j : Nat} {g' : Gor} (h : (step s o).gor j = some g')
    (hn : s.gor j = none) : g'.sub = s.nextSub ∧ g'.since = s.log.length ∧ g'.running = true ∧ g'.holding = none := by
  cases o with
  | connect =>
    have h : s.gor j = some g' := h
    rw [hn] at h; cases h
  | subscribe c w ok =>
    simp only [step] at h
    unfold subscribe at h
    cases hc : s.conn c with
    | none => rw [hc] at h; dsimp only at h; rw [hn] at h; cases h
    | some k =>
      rw [hc] at h
      dsimp only at h
      split at h
      · rcases (started hinv c w).new j g' h with h | ⟨_, _, job, rfl⟩
        · rw [hn] at h; cases h
        · exact ⟨rfl, rfl, rfl, rfl⟩
      · rw [hn] at h; cases h
  | unsubscribe c i =>
    simp only [step] at h
    unfold unsubscribe at h
    cases hc : s.conn c with
    | none => rw [hc] at h; dsimp only at h; rw [hn] at h; cases h
    | some k =>
      rw [hc] at h
      dsimp only at h
      split at h
      · split at h
        · dsimp only at h; rw [hn] at h; cases h
        · dsimp only at h; rw [hn] at h; cases h
      · rw [hn] at h; cases h
  | reply c =>
    simp only [step] at h
    unfold reply at h
    cases hc : s.conn c with
    | none => rw [hc] at h; dsimp only at h; rw [hn] at h; cases h
    | some k =>
      rw [hc] at h
      dsimp only at h
      cases ho : k.owed with
      | none => rw [ho] at h; dsimp only at h; rw [hn] at h; cases h
      | some x => rw [ho] at h; dsimp only at h; rw [hn] at h; cases h
  | publish b r =>
    have h : (s.gor j).map _ = some g' := h
    rw [hn] at h; cases h
  | handle i =>
    simp only [step] at h
    unfold handle at h
    cases hi : s.gor i with
    | none => rw [hi] at h; dsimp only at h; rw [hn] at h; cases h
    | some a =>
      have hne : j ≠ i := by
        intro he
        rw [he, hi] at hn
        cases hn
      rw [hi] at h
      dsimp only at h
      cases ho : a.holding with
      | none => rw [ho] at h; dsimp only at h; rw [hn] at h; cases h
      | some e =>
        rw [ho] at h
        dsimp only at h
        cases hb : a.job.items e.body with
        | none => rw [hb] at h; dsimp only at h; rw [setAt_ne hne, hn] at h; cases h
        | some is =>
          rw [hb] at h
          dsimp only at h
          cases hk : s.conn a.conn with
          | none => rw [hk] at h; dsimp only at h; rw [hn] at h; cases h
          | some k => rw [hk] at h; dsimp only at h; rw [setAt_ne hne, hn] at h; cases h
  | down c =>
    simp only [step] at h
    unfold down at h
    cases hc : s.conn c with
    | none => rw [hc] at h; dsimp only at h; rw [hn] at h; cases h
    | some k => rw [hc] at h; dsimp only at h; rw [hn] at h; cases h
  | readEnd c =>
    simp only [step] at h
    unfold readEnd at h
    cases hc : s.conn c with
    | none => rw [hc] at h; dsimp only at h; rw [hn] at h; cases h
    | some k =>
      rw [hc] at h
      dsimp only at h
      split at h
      · dsimp only at h; rw [hn] at h; cases h
      · rw [hn] at h; cases h

/-- A connection there is stays, and what was written to it. -/
structure LaterC (k k' : Conn) : Prop where
  up : k.up = false → k'.up = false
  reading : k.reading = false → k'.reading = false
  out : ∃ more, k'.out = k.out ++ more

theorem LaterC.refl (k : Conn) : LaterC k k := ⟨id, id, [], (List.append_nil _).symm⟩

theorem LaterC.trans {a b c : Conn} (h : LaterC a b) (k : LaterC b c) : LaterC a c where
  up := fun x => k.up (h.up x)
  reading := fun x => k.reading (h.reading x)
  out := by
    obtain ⟨x, hx⟩ := h.out
    obtain ⟨y, hy⟩ := k.out
    exact ⟨x ++ y, by rw [hy, hx, List.append_assoc]⟩

theorem conn_set {s : State} {c i : Nat} {k b b' : Conn} (h : s.conn c = some k) (hb : s.conn i = some b)
    (l : LaterC b b') : ∃ k', setAt s.conn i b' c = some k' ∧ LaterC k k' := by
  by_cases he : c = i
  · subst he
    rw [h] at hb
    injection hb with hb
    subst hb
    exact ⟨b', setAt_eq, l⟩
  · exact ⟨k, (setAt_ne he).trans h, .refl k⟩

theorem conn_step {s : State} (hinv : Inv s) (o : Op) {c : Nat} {k : Conn} (h : s.conn c = some k) :
    ∃ k', (step s o).conn c = some k' ∧ LaterC k k' := by
  cases o with
  | connect =>
    have := hinv.connLt c k h
    exact ⟨k, (setAt_ne (by omega)).trans h, .refl k⟩
  | subscribe i w ok =>
    simp only [step]
    unfold subscribe
    cases hb : s.conn i with
    | none => exact ⟨k, h, .refl k⟩
    | some b =>
      dsimp only
      split
      · exact conn_set h hb ⟨id, id, [], (List.append_nil _).symm⟩
      · exact ⟨k, h, .refl k⟩
  | unsubscribe i x =>
    simp only [step]
    unfold unsubscribe
    cases hb : s.conn i with
    | none => exact ⟨k, h, .refl k⟩
    | some b =>
      dsimp only
      split
      · split
        · exact conn_set h hb ⟨id, id, [], (List.append_nil _).symm⟩
        · exact conn_set h hb ⟨id, id, [], (List.append_nil _).symm⟩
      · exact ⟨k, h, .refl k⟩
  | reply i =>
    simp only [step]
    unfold reply
    cases hb : s.conn i with
    | none => exact ⟨k, h, .refl k⟩
    | some b =>
      dsimp only
      cases b.owed with
      | none => exact ⟨k, h, .refl k⟩
      | some x =>
        refine conn_set h hb ⟨id, id, ?_⟩
        dsimp only
        split
        · exact ⟨_, rfl⟩
        · exact ⟨[], (List.append_nil _).symm⟩
  | publish b r => exact ⟨k, h, .refl k⟩
  | handle i =>
    simp only [step]
    unfold handle
    cases hi : s.gor i with
    | none => exact ⟨k, h, .refl k⟩
    | some a =>
      dsimp only
      cases a.holding with
      | none => exact ⟨k, h, .refl k⟩
      | some e =>
        dsimp only
        cases a.job.items e.body with
        | none => exact ⟨k, h, .refl k⟩
        | some is =>
          dsimp only
          cases hb : s.conn a.conn with
          | none => exact ⟨k, h, .refl k⟩
          | some b =>
            refine conn_set h hb ⟨id, id, ?_⟩
            dsimp only
            split
            · exact ⟨_, rfl⟩
            · exact ⟨[], (List.append_nil _).symm⟩
  | down i =>
    simp only [step]
    unfold down
    cases hb : s.conn i with
    | none => exact ⟨k, h, .refl k⟩
    | some b => exact conn_set h hb ⟨fun _ => rfl, id, [], (List.append_nil _).symm⟩
  | readEnd i =>
    simp only [step]
    unfold readEnd
    cases hb : s.conn i with
    | none => exact ⟨k, h, .refl k⟩
    | some b =>
      dsimp only
      split
      · exact conn_set h hb ⟨id, fun _ => rfl, [], (List.append_nil _).symm⟩
      · exact ⟨k, h, .refl k⟩

theorem conn_steps {s : State} (hinv : Inv s) (ops : List Op) {c : Nat} {k : Conn} (h : s.conn c = some k) :
    ∃ k', (ops.foldl step s).conn c = some k' ∧ LaterC k k' := by
  induction ops generalizing s k with
  | nil => exact ⟨k, h, .refl k⟩
  | cons o ops ih =>
    obtain ⟨k1, h1, l1⟩ := conn_step hinv o h
    obtain ⟨k2, h2, l2⟩ := ih (inv_step hinv o) h1
    exact ⟨k2, h2, l1.trans l2⟩

theorem start_log (s : State) (c : Nat) (w : Want) : (start s c w).log = s.log := by cases w <;> rfl

theorem start_sub (s : State) (c : Nat) (w : Want) : (start s c w).nextSub = s.nextSub := by cases w <;> rfl

/-- What was reported stays, and numbers are not used again. -/
theorem log_step (s : State) (o : Op) : (∃ x, (step s o).log = s.log ++ x) ∧ s.nextSub ≤ (step s o).nextSub := by
  have same : (∃ x, s.log = s.log ++ x) ∧ s.nextSub ≤ s.nextSub := ⟨⟨[], (List.append_nil _).symm⟩, Nat.le_refl _⟩
  cases o with
  | connect => exact same
  | subscribe c w ok =>
    simp only [step]
    unfold subscribe
    cases s.conn c with
    | none => exact same
    | some k =>
      dsimp only
      split
      · rw [start_log]
        exact ⟨same.1, Nat.le_succ _⟩
      · exact same
  | unsubscribe c i =>
    simp only [step]
    unfold unsubscribe
    cases s.conn c with
    | none => exact same
    | some k =>
      dsimp only
      split
      · split <;> exact same
      · exact same
  | reply c =>
    simp only [step]
    unfold reply
    cases s.conn c with
    | none => exact same
    | some k =>
      dsimp only
      cases k.owed <;> exact same
  | publish b r => exact ⟨⟨_, rfl⟩, Nat.le_refl _⟩
  | handle i =>
    simp only [step]
    unfold handle
    cases s.gor i with
    | none => exact same
    | some a =>
      dsimp only
      cases a.holding with
      | none => exact same
      | some e =>
        dsimp only
        cases a.job.items e.body with
        | none => exact same
        | some is =>
          dsimp only
          cases s.conn a.conn <;> exact same
  | down c =>
    simp only [step]
    unfold down
    cases s.conn c <;> exact same
  | readEnd c =>
    simp only [step]
    unfold readEnd
    cases s.conn c with
    | none => exact same
    | some k =>
      dsimp only
      split <;> exact same

theorem log_steps (s : State) (ops : List Op) :
    (∃ x, (ops.foldl step s).log = s.log ++ x) ∧ s.nextSub ≤ (ops.foldl step s).nextSub := by
  induction ops generalizing s with
  | nil => exact ⟨⟨[], (List.append_nil _).symm⟩, Nat.le_refl _⟩
  | cons o ops ih =>
    obtain ⟨⟨x, hx⟩, h1⟩ := log_step s o
    obtain ⟨⟨y, hy⟩, h2⟩ := ih (step s o)
    refine ⟨⟨x ++ y, ?_⟩, Nat.le_trans h1 h2⟩
    show ((ops.foldl step (step s o)).log) = _
    rw [hy, hx, List.append_assoc]

/-- A goroutine of an old subscription was there before. -/
theorem gor_back {s : State} (hinv : Inv s) (ops : List Op) {j : Nat} {g' : Gor}
    (h : (ops.foldl step s).gor j = some g') (hs : g'.sub < s.nextSub) : ∃ g, s.gor j = some g ∧ Later g g' := by
  cases hg : s.gor j with
  | some g =>
    obtain ⟨g2, h2, l⟩ := gor_steps hinv ops hg
    rw [h] at h2
    injection h2 with h2
    subst h2
    exact ⟨g, rfl, l⟩
  | none =>
    exfalso
    induction ops generalizing s with
    | nil =>
      have h : s.gor j = some g' := h
      rw [hg] at h
      cases h
    | cons o ops ih =>
      cases h1 : (step s o).gor j with
      | none => exact ih (inv_step hinv o) h (Nat.lt_of_lt_of_le hs (log_step s o).2) h1
      | some g1 =>
        obtain ⟨g2, h2, l⟩ := gor_steps (inv_step hinv o) ops h1
        have h : (ops.foldl step (step s o)).gor j = some g' := h
        rw [h] at h2
        injection h2 with h2
        subst h2
        have := (gor_new hinv o h1 hg).1
        have := l.sub
        omega

/-- A goroutine of a new subscription starts with what is reported from now on. -/
theorem gor_since {s : State} (hinv : Inv s) (ops : List Op) {j : Nat} {g' : Gor}
    (h : (ops.foldl step s).gor j = some g') (hs : s.nextSub ≤ g'.sub) : s.log.length ≤ g'.since := by
  cases hg : s.gor j with
  | some g =>
    obtain ⟨g2, h2, l⟩ := gor_steps hinv ops hg
    rw [h] at h2
    injection h2 with h2
    subst h2
    have := l.sub
    have := (hinv.gorLt j g hg).2
    omega
  | none =>
    induction ops generalizing s with
    | nil =>
      have h : s.gor j = some g' := h
      rw [hg] at h
      cases h
    | cons o ops ih =>
      obtain ⟨⟨x, hx⟩, hl⟩ := log_step s o
      cases h1 : (step s o).gor j with
      | some g1 =>
        obtain ⟨g2, h2, l⟩ := gor_steps (inv_step hinv o) ops h1
        have h : (ops.foldl step (step s o)).gor j = some g' := h
        rw [h] at h2
        injection h2 with h2
        subst h2
        have := (gor_new hinv o h1 hg).2.1
        have := l.since
        omega
      | none =>
        by_cases hh : (step s o).nextSub ≤ g'.sub
        · have := ih (inv_step hinv o) h hh h1
          rw [hx, List.length_append] at this
          omega
        · obtain ⟨g, h2, _⟩ := gor_back (inv_step hinv o) ops h (by omega)
          rw [h1] at h2
          cases h2

/-! ## Goroutines that stopped -/

theorem items_none {j : Job} {b : Body} (h : j.items b = none) : (∃ c, j = .txLogs c) ∧ b = .txLogs none := by
  cases j <;> cases b <;> unfold Job.items at h
  all_goals first | (cases h; done) | skip
  · next c rs =>
    cases rs with
    | none => exact ⟨⟨c, rfl⟩, rfl⟩
    | some rs => cases rs <;> cases h
  · next c b =>
    dsimp only at h
    cases hc : b.cron <;> rw [hc] at h <;> cases h

/-- A goroutine that stopped holds nothing, and an event that cannot be decoded was reported. -/
def Quiet (s : State) : Prop :=
  ∀ j g, s.gor j = some g → g.running = false →
    g.holding = none ∧ (∃ c, g.job = .txLogs c) ∧ ∃ e ∈ s.log, e.body = .txLogs none

theorem quiet_set {s : State} (h : Quiet s) {j : Nat} {g : Gor}
    (hg : g.running = false → g.holding = none ∧ (∃ c, g.job = .txLogs c) ∧ ∃ e ∈ s.log, e.body = .txLogs none)
    (i : Nat) (a : Gor) (ha : setAt s.gor j g i = some a) (hr : a.running = false) :
    a.holding = none ∧ (∃ c, a.job = .txLogs c) ∧ ∃ e ∈ s.log, e.body = .txLogs none := by
  rcases setAt_some ha with ⟨_, rfl⟩ | ⟨_, ha⟩
  · exact hg hr
  · exact h i a ha hr

theorem quiet_step {s : State} (hinv : Inv s) (h : Quiet s) (o : Op) : Quiet (step s o) := by
  cases o with
  | connect => exact h
  | subscribe c w ok =>
    simp only [step]
    unfold subscribe
    cases s.conn c with
    | none => exact h
    | some k =>
      dsimp only
      split
      · intro j g hg hr
        rcases (started hinv c w).new j g hg with hg | ⟨_, _, job, rfl⟩
        · show _ ∧ _ ∧ ∃ e ∈ (start s c w).log, _
          rw [start_log]
          exact h j g hg hr
        · cases hr
      · exact h
  | unsubscribe c i =>
    simp only [step]
    unfold unsubscribe
    cases s.conn c with
    | none => exact h
    | some k =>
      dsimp only
      split
      · split
        · intro j g hg hr
          obtain ⟨g0, h0, rfl⟩ := Option.map_eq_some_iff.1 hg
          obtain ⟨_, _, h3, h4, h5⟩ := unhook_same s.log.length [i] g0
          rw [h4] at hr
          rw [h3, h5]
          exact h j g0 h0 hr
        · exact h
      · exact h
  | reply c =>
    simp only [step]
    unfold reply
    cases s.conn c with
    | none => exact h
    | some k =>
      dsimp only
      cases k.owed <;> exact h
  | publish b r =>
    intro j g hg hr
    obtain ⟨g0, h0, rfl⟩ := Option.map_eq_some_iff.1 hg
    obtain ⟨_, _, h3, h4, _⟩ := offer_same ⟨s.log.length, b⟩ (r.contains j) g0
    rw [h4] at hr
    obtain ⟨k1, k2, e, he, hb⟩ := h j g0 h0 hr
    refine ⟨?_, by rw [h3]; exact k2, e, List.mem_append_left _ he, hb⟩
    unfold offer
    rw [if_neg]
    · exact k1
    · rintro ⟨_, _, hc, _⟩
      rw [hr] at hc
      cases hc
  | handle i =>
    simp only [step]
    unfold handle
    cases hg : s.gor i with
    | none => exact h
    | some a =>
      dsimp only
      cases ho : a.holding with
      | none => exact h
      | some e =>
        dsimp only
        obtain ⟨k, hk⟩ := hinv.has i a hg
        have hc := (hinv.course i a k hg hk).held e ho
        cases hi : a.job.items e.body with
        | none =>
          exact quiet_set h (fun _ => ⟨rfl, (items_none hi).1, e, List.mem_of_getElem? hc.1, (items_none hi).2⟩)
        | some is =>
          dsimp only
          rw [hk]
          exact quiet_set h (fun hr => ⟨rfl, (h i a hg hr).2⟩)
  | down c =>
    simp only [step]
    unfold down
    cases s.conn c <;> exact h
  | readEnd c =>
    simp only [step]
    unfold readEnd
    cases s.conn c with
    | none => exact h
    | some k =>
      dsimp only
      split
      · intro j g hg hr
        obtain ⟨g0, h0, rfl⟩ := Option.map_eq_some_iff.1 hg
        obtain ⟨_, _, h3, h4, h5⟩ := unhook_same s.log.length k.subs g0
        rw [h4] at hr
        rw [h3, h5]
        exact h j g0 h0 hr
      · exact h

theorem quiet_run (ops : List Op) : Quiet (run ops) := by
  unfold run
  have : ∀ s, Inv s → Quiet s → Quiet (ops.foldl step s) := by
    induction ops with
    | nil => exact fun s _ h => h
    | cons o ops ih => exact fun s hi h => ih _ (inv_step hi o) (quiet_step hi h o)
  exact this init inv_init (fun _ _ h => nomatch h)

/-! ## Listed subscriptions -/

/-- A subscription in a table has a goroutine. -/
def Listed (s : State) : Prop :=
  ∀ c k i, s.conn c = some k → i ∈ k.subs → ∃ j g, s.gor j = some g ∧ g.sub = i

theorem listed_step {s : State} (hinv : Inv s) (h : Listed s) (o : Op) : Listed (step s o) := by
  intro c k i hk hi
  by_cases hold : ∃ k0, s.conn c = some k0 ∧ i ∈ k0.subs
  · obtain ⟨k0, h0, h1⟩ := hold
    obtain ⟨j, g, hg, hs⟩ := h c k0 i h0 h1
    obtain ⟨g', hg', l⟩ := gor_step hinv o hg
    exact ⟨j, g', hg', l.sub.trans hs⟩
  · have same : s.conn c = some k → False := fun hh => hold ⟨k, hh, hi⟩
    cases o with
    | connect =>
      rcases setAt_some hk with ⟨_, rfl⟩ | ⟨_, hk⟩
      · cases hi
      · exact (same hk).elim
    | subscribe c' w ok =>
      simp only [step] at hk ⊢
      unfold subscribe at hk ⊢
      cases hc : s.conn c' with
      | none => rw [hc] at hk; exact (same hk).elim
      | some k' =>
        rw [hc] at hk
        dsimp only at hk ⊢
        split at hk
        · next hif =>
          rw [if_pos hif]
          rcases setAt_some hk with ⟨rfl, rfl⟩ | ⟨_, hk⟩
          · rcases List.mem_cons.1 hi with rfl | hi
            · cases w with
              | heads => exact ⟨s.nextGor, _, setAt_eq, rfl⟩
              | pending => exact ⟨s.nextGor, _, setAt_eq, rfl⟩
              | logs cr => exact ⟨s.nextGor + 1, _, setAt_eq, rfl⟩
            · exact (hold ⟨k', hc, hi⟩).elim
          · exact (same hk).elim
        · exact (same hk).elim
    | unsubscribe c' x =>
      simp only [step] at hk
      unfold unsubscribe at hk
      cases hc : s.conn c' with
      | none => rw [hc] at hk; exact (same hk).elim
      | some k' =>
        rw [hc] at hk
        dsimp only at hk
        split at hk
        · split at hk
          · rcases setAt_some hk with ⟨rfl, rfl⟩ | ⟨_, hk⟩
            · exact (hold ⟨k', hc, (List.mem_filter.1 hi).1⟩).elim
            · exact (same hk).elim
          · rcases setAt_some hk with ⟨rfl, rfl⟩ | ⟨_, hk⟩
            · exact (hold ⟨k', hc, hi⟩).elim
            · exact (same hk).elim
        · exact (same hk).elim
    | reply c' =>
      simp only [step] at hk
      unfold reply at hk
      cases hc : s.conn c' with
      | none => rw [hc] at hk; exact (same hk).elim
      | some k' =>
        rw [hc] at hk
        dsimp only at hk
        cases ho : k'.owed with
        | none => rw [ho] at hk; exact (same hk).elim
        | some x =>
          rw [ho] at hk
          rcases setAt_some hk with ⟨rfl, rfl⟩ | ⟨_, hk⟩
          · exact (hold ⟨k', hc, hi⟩).elim
          · exact (same hk).elim
    | publish b r => exact (same hk).elim
    | handle x =>
      simp only [step] at hk
      unfold handle at hk
      cases hg : s.gor x with
      | none => rw [hg] at hk; exact (same hk).elim
      | some a =>
        rw [hg] at hk
        dsimp only at hk
        cases ho : a.holding with
        | none => rw [ho] at hk; exact (same hk).elim
        | some e =>
          rw [ho] at hk
          dsimp only at hk
          cases hb : a.job.items e.body with
          | none => rw [hb] at hk; exact (same hk).elim
          | some is =>
            rw [hb] at hk
            dsimp only at hk
            cases hc : s.conn a.conn with
            | none => rw [hc] at hk; exact (same hk).elim
            | some k' =>
              rw [hc] at hk
              rcases setAt_some hk with ⟨rfl, rfl⟩ | ⟨_, hk⟩
              · exact (hold ⟨k', hc, hi⟩).elim
              · exact (same hk).elim
    | down c' =>
      simp only [step] at hk
      unfold down at hk
      cases hc : s.conn c' with
      | none => rw [hc] at hk; exact (same hk).elim
      | some k' =>
        rw [hc] at hk
        rcases setAt_some hk with ⟨rfl, rfl⟩ | ⟨_, hk⟩
        · exact (hold ⟨k', hc, hi⟩).elim
        · exact (same hk).elim
    | readEnd c' =>
      simp only [step] at hk
      unfold readEnd at hk
      cases hc : s.conn c' with
      | none => rw [hc] at hk; exact (same hk).elim
      | some k' =>
        rw [hc] at hk
        dsimp only at hk
        split at hk
        · rcases setAt_some hk with ⟨rfl, rfl⟩ | ⟨_, hk⟩
          · cases hi
          · exact (same hk).elim
        · exact (same hk).elim

theorem listed_run (ops : List Op) : Listed (run ops) := by
  unfold run
  have : ∀ s, Inv s → Listed s → Listed (ops.foldl step s) := by
    induction ops with
    | nil => exact fun s _ h => h
    | cons o ops ih => exact fun s hi h => ih _ (inv_step hi o) (listed_step hi h o)
  exact this init inv_init (fun _ _ _ h => nomatch h)

theorem listed_once (ops : List Op) {c d : Nat} {k l : Conn} {i : Nat} (hc : (run ops).conn c = some k)
    (hd : (run ops).conn d = some l) (hk : i ∈ k.subs) (hl : i ∈ l.subs) : c = d := by
  obtain ⟨j, g, hg, hs⟩ := listed_run ops c k i hc hk
  have h1 := ((inv_run ops).own c k i hc hk).2 j g hg hs
  have h2 := ((inv_run ops).own d l i hd hl).2 j g hg hs
  omega

/-! ## A goroutine that stopped writes nothing -/

theorem silent_step {s : State} (hinv : Inv s) {j : Nat} {g : Gor} {k : Conn} (hg : s.gor j = some g)
    (hk : s.conn g.conn = some k) (hh : g.running = false ∧ g.holding = none) (o : Op) :
    ∃ g' k', (step s o).gor j = some g' ∧ (step s o).conn g.conn = some k' ∧ g'.conn = g.conn ∧
      g'.running = false ∧ g'.holding = none ∧ notesBy j k'.out = notesBy j k.out := by
  have key : ∀ (i : Nat) (b b' : Conn), s.conn i = some b → notesBy j b'.out = notesBy j b.out →
      ∃ k', setAt s.conn i b' g.conn = some k' ∧ notesBy j k'.out = notesBy j k.out := by
    intro i b b' hb hn
    by_cases he : g.conn = i
    · refine ⟨b', if_pos he, ?_⟩
      rw [he, hb] at hk
      injection hk with hk
      rw [hn, hk]
    · exact ⟨k, (setAt_ne he).trans hk, rfl⟩
  have same : ∃ g' k', s.gor j = some g' ∧ s.conn g.conn = some k' ∧ g'.conn = g.conn ∧
      g'.running = false ∧ g'.holding = none ∧ notesBy j k'.out = notesBy j k.out :=
    ⟨g, k, hg, hk, rfl, hh.1, hh.2, rfl⟩
  have un : ∀ n is, (unhook n is g).conn = g.conn ∧ (unhook n is g).running = false ∧ (unhook n is g).holding = none := by
    intro n is
    obtain ⟨h1, _, _, h4, h5⟩ := unhook_same n is g
    exact ⟨h1, h4.trans hh.1, h5.trans hh.2⟩
  cases o with
  | connect =>
    have := hinv.connLt _ _ hk
    exact ⟨g, k, hg, (setAt_ne (by omega)).trans hk, rfl, hh.1, hh.2, rfl⟩
  | subscribe c w ok =>
    simp only [step]
    unfold subscribe
    cases hb : s.conn c with
    | none => exact same
    | some b =>
      dsimp only
      split
      · obtain ⟨k', h1, h2⟩ := key c b { b with subs := s.nextSub :: b.subs, owed := some (.subscribed s.nextSub) } hb rfl
        exact ⟨g, k', (started hinv c w).old j g hg, h1, rfl, hh.1, hh.2, h2⟩
      · exact same
  | unsubscribe c i =>
    simp only [step]
    unfold unsubscribe
    cases hb : s.conn c with
    | none => exact same
    | some b =>
      dsimp only
      split
      · split
        · obtain ⟨k', h1, h2⟩ := key c b { b with subs := b.subs.filter (· ≠ i), owed := some (.cancelled i true) } hb rfl
          exact ⟨_, k', map_at hg _, h1, (un _ _).1, (un _ _).2.1, (un _ _).2.2, h2⟩
        · obtain ⟨k', h1, h2⟩ := key c b { b with owed := some (.cancelled i false) } hb rfl
          exact ⟨g, k', hg, h1, rfl, hh.1, hh.2, h2⟩
      · exact same
  | reply c =>
    simp only [step]
    unfold reply
    cases hb : s.conn c with
    | none => exact same
    | some b =>
      dsimp only
      cases ho : b.owed with
      | none => exact same
      | some o =>
        dsimp only
        have hn : notesBy j [o] = [] := by
          rcases hinv.owed c b o hb ho with ⟨i, rfl⟩ | ⟨i, b, rfl⟩ <;> rfl
        obtain ⟨k', h1, h2⟩ := key c b { b with owed := none, out := if b.up then b.out ++ [o] else b.out } hb (by
          dsimp only
          split
          · rw [notesBy_append, hn, List.append_nil]
          · rfl)
        exact ⟨g, k', hg, h1, rfl, hh.1, hh.2, h2⟩
  | publish b r =>
    obtain ⟨h1, _, _, h4, _⟩ := offer_same ⟨s.log.length, b⟩ (r.contains j) g
    refine ⟨_, k, map_at hg _, hk, h1, h4.trans hh.1, ?_, rfl⟩
    unfold offer
    rw [if_neg]
    · exact hh.2
    · rintro ⟨_, _, hc, _⟩
      rw [hh.1] at hc
      cases hc
  | handle i =>
    simp only [step]
    unfold handle
    cases hi : s.gor i with
    | none => exact same
    | some a =>
      dsimp only
      cases ho : a.holding with
      | none => exact same
      | some e =>
        have hne : i ≠ j := by
          intro he
          rw [he, hg] at hi
          injection hi with hi
          rw [← hi, hh.2] at ho
          cases ho
        dsimp only
        cases a.job.items e.body with
        | none => exact ⟨g, k, (setAt_ne (fun he => hne he.symm)).trans hg, hk, rfl, hh.1, hh.2, rfl⟩
        | some is =>
          dsimp only
          cases hb : s.conn a.conn with
          | none => exact same
          | some b =>
            dsimp only
            obtain ⟨k', h1, h2⟩ := key a.conn b
              { b with out := if b.up then b.out ++ is.map (.note a.sub i) else b.out } hb (by
                dsimp only
                split
                · rw [notesBy_append, notesBy_other hne, List.append_nil]
                · rfl)
            exact ⟨g, k', (setAt_ne (fun he => hne he.symm)).trans hg, h1, rfl, hh.1, hh.2, h2⟩
  | down c =>
    simp only [step]
    unfold down
    cases hb : s.conn c with
    | none => exact same
    | some b =>
      obtain ⟨k', h1, h2⟩ := key c b { b with up := false } hb rfl
      exact ⟨g, k', hg, h1, rfl, hh.1, hh.2, h2⟩
  | readEnd c =>
    simp only [step]
    unfold readEnd
    cases hb : s.conn c with
    | none => exact same
    | some b =>
      dsimp only
      split
      · obtain ⟨k', h1, h2⟩ := key c b { b with reading := false, subs := [] } hb rfl
        exact ⟨_, k', map_at hg _, h1, (un _ _).1, (un _ _).2.1, (un _ _).2.2, h2⟩
      · exact same

theorem silent_steps {s : State} (hinv : Inv s) {j : Nat} {g : Gor} {k : Conn} (hg : s.gor j = some g)
    (hk : s.conn g.conn = some k) (hh : g.running = false ∧ g.holding = none) (ops : List Op) :
    ∃ k', (ops.foldl step s).conn g.conn = some k' ∧ notesBy j k'.out = notesBy j k.out := by
  induction ops generalizing s g k with
  | nil => exact ⟨k, hk, rfl⟩
  | cons o ops ih =>
    obtain ⟨g', k', h1, h2, h3, h4, h5, h6⟩ := silent_step hinv hg hk hh o
    rw [← h3] at h2
    obtain ⟨k2, h7, h8⟩ := ih (inv_step hinv o) h1 h2 ⟨h4, h5⟩
    rw [h3] at h7
    exact ⟨k2, h7, h8.trans h6⟩

/-! ## What is reported only grows by reports -/

theorem log_same {s : State} {o : Op} (h : ∀ b r, o ≠ .publish b r) : (step s o).log = s.log := by
  cases o with
  | connect => rfl
  | subscribe c w ok =>
    simp only [step]
    unfold subscribe
    cases s.conn c with
    | none => rfl
    | some k =>
      dsimp only
      split
      · exact start_log s c w
      · rfl
  | unsubscribe c i =>
    simp only [step]
    unfold unsubscribe
    cases s.conn c with
    | none => rfl
    | some k =>
      dsimp only
      split
      · split <;> rfl
      · rfl
  | reply c =>
    simp only [step]
    unfold reply
    cases s.conn c with
    | none => rfl
    | some k =>
      dsimp only
      cases k.owed <;> rfl
  | publish b r => exact absurd rfl (h b r)
  | handle i =>
    simp only [step]
    unfold handle
    cases s.gor i with
    | none => rfl
    | some a =>
      dsimp only
      cases a.holding with
      | none => rfl
      | some e =>
        dsimp only
        cases a.job.items e.body with
        | none => rfl
        | some is =>
          dsimp only
          cases s.conn a.conn <;> rfl
  | down c =>
    simp only [step]
    unfold down
    cases s.conn c <;> rfl
  | readEnd c =>
    simp only [step]
    unfold readEnd
    cases s.conn c with
    | none => rfl
    | some k =>
      dsimp only
      split <;> rfl

theorem logs_same {s : State} {ops : List Op} (h : ∀ o ∈ ops, ∀ b r, o ≠ .publish b r) : (ops.foldl step s).log = s.log := by
  induction ops generalizing s with
  | nil => rfl
  | cons o ops ih =>
    show (ops.foldl step (step s o)).log = _
    rw [ih (fun x hx => h x (List.mem_cons_of_mem _ hx)), log_same (h o List.mem_cons_self)]

end Sock
