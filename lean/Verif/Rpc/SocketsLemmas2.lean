import Verif.Rpc.SocketsSpec
import Verif.Rpc.LogsLemmas

/-! # WebSocket connections: subscriptions -/

namespace Sock

open LogQuery (Log Criteria filter_picked)

theorem run_snoc (ops : List Op) (o : Op) : run (ops ++ [o]) = step (run ops) o := by
  unfold run
  rw [List.foldl_append]
  rfl

theorem run_append (ops more : List Op) : run (ops ++ more) = more.foldl step (run ops) := by
  unfold run
  rw [List.foldl_append]

theorem setAt_eq {m : Nat → Option α} {i : Nat} {a : α} : setAt m i a i = some a := if_pos rfl

theorem setAt_ne {m : Nat → Option α} {i j : Nat} {a : α} (h : j ≠ i) : setAt m i a j = m j := if_neg h

theorem setAt_some {m : Nat → Option α} {i j : Nat} {a b : α} (h : setAt m i a j = some b) :
    (j = i ∧ a = b) ∨ (j ≠ i ∧ m j = some b) := by
  by_cases hj : j = i
  · subst hj
    rw [setAt_eq] at h
    injection h with h
    exact .inl ⟨rfl, h⟩
  · rw [setAt_ne hj] at h
    exact .inr ⟨hj, h⟩

theorem items_news {j : Job} {b : Body} {is : List Item} (hh : j.hears b = true) (h : j.items b = some is) :
    News j b is := by
  cases j <;> cases b <;> simp only [Job.hears, Bool.false_eq_true] at hh <;> unfold Job.items at h
  · injection h with h
    subst h
    exact .head rfl rfl rfl rfl
  · next c rs =>
    cases rs with
    | none => cases h
    | some rs =>
      cases rs with
      | nil =>
        injection h with h
        subst h
        exact .none
      | cons r rs =>
        injection h with h
        subst h
        exact .first (filter_picked c r)
  · next c b =>
    dsimp only at h
    cases hc : b.cron with
    | none =>
      rw [hc] at h
      injection h with h
      subst h
      exact .noCron hc
    | some ls =>
      rw [hc] at h
      injection h with h
      subst h
      exact .cron hc (filter_picked c ls)
  · injection h with h
    subst h
    exact .txs

theorem notesBy_append (j : Nat) (a b : List Out) : notesBy j (a ++ b) = notesBy j a ++ notesBy j b := by
  unfold notesBy
  rw [List.filterMap_append]

theorem notesBy_own (j i : Nat) (is : List Item) : notesBy j (is.map (.note i j)) = is := by
  unfold notesBy
  induction is with
  | nil => rfl
  | cons a is ih =>
    rw [List.map_cons, List.filterMap_cons_some (b := a) (by show (if _ then _ else _) = _; rw [if_pos rfl]), ih]

theorem notesBy_other {j k : Nat} (h : k ≠ j) (i : Nat) (is : List Item) : notesBy j (is.map (.note i k)) = [] := by
  unfold notesBy
  induction is with
  | nil => rfl
  | cons a is ih =>
    rw [List.map_cons, List.filterMap_cons_none (by show (if _ then _ else _) = _; rw [if_neg h]), ih]

/-- What holds of a goroutine. -/
structure Course (log : List Ev) (j : Nat) (g : Gor) (out : List Out) : Prop where
  since : g.since ≤ log.length
  bus : g.onBus = true → g.till = none
  till : ∀ u, g.till = some u → u ≤ log.length
  held : ∀ h, g.holding = some h → log[h.no]? = some h ∧ g.job.hears h.body = true ∧ g.since ≤ h.no ∧
    ∀ u, g.till = some u → h.no < u
  told : ∃ es, Told g.job es (notesBy j out) ∧ es.Pairwise (fun d e => d.no < e.no) ∧
    ∀ e ∈ es, log[e.no]? = some e ∧ g.since ≤ e.no ∧ (∀ u, g.till = some u → e.no < u) ∧
      ∀ h, g.holding = some h → e.no < h.no

theorem lookup_append {log : List Ev} {e : Ev} {n : Nat} (h : log[n]? = some e) (x : List Ev) :
    (log ++ x)[n]? = some e := by
  have hl : n < log.length := (List.getElem?_eq_some_iff.1 h).1
  rw [List.getElem?_append_left hl]
  exact h

theorem Course.extend {log : List Ev} {j : Nat} {g : Gor} {out : List Out} (h : Course log j g out) (x : List Ev) :
    Course (log ++ x) j g out where
  since := by have := h.since; rw [List.length_append]; omega
  bus := h.bus
  till := fun u hu => by have := h.till u hu; rw [List.length_append]; omega
  held := fun e he => ⟨lookup_append (h.held e he).1 x, (h.held e he).2⟩
  told := by
    obtain ⟨es, h1, h2, h3⟩ := h.told
    exact ⟨es, h1, h2, fun e he => ⟨lookup_append (h3 e he).1 x, (h3 e he).2⟩⟩

theorem Course.other {log : List Ev} {j : Nat} {g : Gor} {out : List Out} (h : Course log j g out) {x : List Out}
    (hx : notesBy j x = []) : Course log j g (out ++ x) where
  since := h.since
  bus := h.bus
  till := h.till
  held := h.held
  told := by
    rw [notesBy_append, hx, List.append_nil]
    exact h.told

theorem Course.unhook {log : List Ev} {j : Nat} {g : Gor} {out : List Out} (h : Course log j g out) (is : List Nat) :
    Course log j (unhook log.length is g) out := by
  unfold Sock.unhook
  split
  · have hl : ∀ e : Ev, log[e.no]? = some e → e.no < log.length := fun e he => (List.getElem?_eq_some_iff.1 he).1
    obtain ⟨es, h1, h2, h3⟩ := h.told
    exact {
      since := h.since
      bus := fun hb => nomatch hb
      till := fun u hu => by injection hu with hu; omega
      held := fun e he => ⟨(h.held e he).1, (h.held e he).2.1, (h.held e he).2.2.1, fun u hu => by
        injection hu with hu
        have := hl e (h.held e he).1
        omega⟩
      told := ⟨es, h1, h2, fun e he => ⟨(h3 e he).1, (h3 e he).2.1, fun u hu => by
        injection hu with hu
        have := hl e (h3 e he).1
        omega, (h3 e he).2.2.2⟩⟩ }
  · exact h

theorem Course.offer {log : List Ev} {j : Nat} {g : Gor} {out : List Out} (h : Course log j g out) (b : Body) (r : Bool) :
    Course (log ++ [⟨log.length, b⟩]) j (offer ⟨log.length, b⟩ r g) out := by
  have hx := h.extend [⟨log.length, b⟩]
  unfold Sock.offer
  split
  · next hc =>
    obtain ⟨hb, hh, _, hn, _⟩ := hc
    have ht := h.bus hb
    obtain ⟨es, h1, h2, h3⟩ := h.told
    exact {
      since := hx.since
      bus := hx.bus
      till := hx.till
      held := fun e he => by
        injection he with he
        subst he
        refine ⟨by simp, hh, h.since, fun u hu => ?_⟩
        rw [show ({ g with holding := some ⟨log.length, b⟩ } : Gor).till = g.till from rfl, ht] at hu
        cases hu
      told := ⟨es, h1, h2, fun e he => ⟨lookup_append (h3 e he).1 _, (h3 e he).2.1, (h3 e he).2.2.1, fun x hxx => by
        injection hxx with hxx
        subst hxx
        exact (List.getElem?_eq_some_iff.1 (h3 e he).1).1⟩⟩ }
  · exact hx

/-- The goroutine gives up its event without a notification. -/
theorem Course.drop {log : List Ev} {j : Nat} {g : Gor} {out : List Out} (h : Course log j g out) (r : Bool) :
    Course log j { g with holding := none, running := r } out where
  since := h.since
  bus := h.bus
  till := h.till
  held := fun _ he => nomatch he
  told := by
    obtain ⟨es, h1, h2, h3⟩ := h.told
    exact ⟨es, h1, h2, fun e he => ⟨(h3 e he).1, (h3 e he).2.1, (h3 e he).2.2.1, fun _ hx => nomatch hx⟩⟩

theorem pairwise_snoc {es : List Ev} {e : Ev} (h : es.Pairwise (fun d e => d.no < e.no)) (hl : ∀ d ∈ es, d.no < e.no) :
    (es ++ [e]).Pairwise (fun d e => d.no < e.no) := by
  rw [List.pairwise_append]
  refine ⟨h, List.pairwise_singleton _ _, fun d hd x hx => ?_⟩
  rw [List.mem_singleton] at hx
  rw [hx]
  exact hl d hd

theorem Course.write {log : List Ev} {j : Nat} {g : Gor} {out : List Out} (h : Course log j g out) {e : Ev}
    (he : g.holding = some e) {is : List Item} (hi : g.job.items e.body = some is) :
    Course log j { g with holding := none } (out ++ is.map (.note g.sub j)) := by
  obtain ⟨es, h1, h2, h3⟩ := h.told
  obtain ⟨k1, k2, k3, k4⟩ := h.held e he
  exact {
    since := h.since
    bus := h.bus
    till := h.till
    held := fun _ hx => nomatch hx
    told := by
      refine ⟨es ++ [e], ?_, pairwise_snoc h2 (fun d hd => (h3 d hd).2.2.2 e he), fun d hd => ?_⟩
      · rw [notesBy_append, notesBy_own]
        exact .snoc h1 (items_news k2 hi)
      · rcases List.mem_append.1 hd with hd | hd
        · exact ⟨(h3 d hd).1, (h3 d hd).2.1, (h3 d hd).2.2.1, fun _ hx => nomatch hx⟩
        · rw [List.mem_singleton] at hd
          rw [hd]
          exact ⟨k1, k3, k4, fun _ hx => nomatch hx⟩ }

/-- What holds of all connections and goroutines. -/
structure Inv (s : State) : Prop where
  gorLt : ∀ j g, s.gor j = some g → j < s.nextGor ∧ g.sub < s.nextSub
  connLt : ∀ c k, s.conn c = some k → c < s.nextConn
  has : ∀ j g, s.gor j = some g → ∃ k, s.conn g.conn = some k
  course : ∀ j g k, s.gor j = some g → s.conn g.conn = some k → Course s.log j g k.out
  bus : ∀ j g k, s.gor j = some g → s.conn g.conn = some k → (g.onBus = true ↔ g.sub ∈ k.subs)
  own : ∀ c k i, s.conn c = some k → i ∈ k.subs → i < s.nextSub ∧ ∀ j g, s.gor j = some g → g.sub = i → g.conn = c
  notes : ∀ c k i j it, s.conn c = some k → .note i j it ∈ k.out → ∃ g, s.gor j = some g ∧ g.conn = c ∧ g.sub = i
  answered : ∀ c k i, s.conn c = some k → (.subscribed i ∈ k.out ∨ k.owed = some (.subscribed i)) →
    i < s.nextSub ∧ ∀ j g, s.gor j = some g → g.sub = i → g.conn = c
  owed : ∀ c k o, s.conn c = some k → k.owed = some o → (∃ i, o = .subscribed i) ∨ ∃ i b, o = .cancelled i b
  stopped : ∀ c k, s.conn c = some k → k.reading = false → k.subs = []

theorem inv_init : Inv init where
  gorLt := fun _ _ h => nomatch h
  connLt := fun _ _ h => nomatch h
  has := fun _ _ h => nomatch h
  course := fun _ _ _ h => nomatch h
  bus := fun _ _ _ h => nomatch h
  own := fun _ _ _ h => nomatch h
  notes := fun _ _ _ _ _ h => nomatch h
  answered := fun _ _ _ h => nomatch h
  owed := fun _ _ _ h => nomatch h
  stopped := fun _ _ h => nomatch h

theorem inv_connect {s : State} (h : Inv s) : Inv (connect s) := by
  unfold connect
  have hne : ∀ j g, s.gor j = some g → g.conn ≠ s.nextConn := fun j g hg he => by
    obtain ⟨k, hk⟩ := h.has j g hg
    have := h.connLt _ _ hk
    omega
  exact {
    gorLt := h.gorLt
    connLt := fun c k hk => by
      rcases setAt_some hk with ⟨rfl, _⟩ | ⟨_, hk⟩
      · exact Nat.lt_succ_self _
      · exact Nat.lt_succ_of_lt (h.connLt c k hk)
    has := fun j g hg => by
      obtain ⟨k, hk⟩ := h.has j g hg
      exact ⟨k, (setAt_ne (hne j g hg)).trans hk⟩
    course := fun j g k hg hk => by
      have hk := (setAt_ne (hne j g hg)).symm.trans hk
      exact h.course j g k hg hk
    bus := fun j g k hg hk => by
      have hk := (setAt_ne (hne j g hg)).symm.trans hk
      exact h.bus j g k hg hk
    own := fun c k i hk hi => by
      rcases setAt_some hk with ⟨_, rfl⟩ | ⟨_, hk⟩
      · cases hi
      · exact h.own c k i hk hi
    notes := fun c k i j it hk hn => by
      rcases setAt_some hk with ⟨_, rfl⟩ | ⟨_, hk⟩
      · cases hn
      · exact h.notes c k i j it hk hn
    answered := fun c k i hk hn => by
      rcases setAt_some hk with ⟨_, rfl⟩ | ⟨_, hk⟩
      · rcases hn with hn | hn <;> cases hn
      · exact h.answered c k i hk hn
    owed := fun c k o hk ho => by
      rcases setAt_some hk with ⟨_, rfl⟩ | ⟨_, hk⟩
      · cases ho
      · exact h.owed c k o hk ho
    stopped := fun c k hk hr => by
      rcases setAt_some hk with ⟨_, rfl⟩ | ⟨_, hk⟩
      · rfl
      · exact h.stopped c k hk hr }

/-- Only new goroutines of the new subscription are added. -/
structure Started (s : State) (c : Nat) (t : State) : Prop where
  old : ∀ j g, s.gor j = some g → t.gor j = some g
  new : ∀ j g, t.gor j = some g → s.gor j = some g ∨ (s.nextGor ≤ j ∧ j < t.nextGor ∧ ∃ job, g = newGor s c job)
  grows : s.nextGor ≤ t.nextGor
  conn : t.conn = s.conn
  nextConn : t.nextConn = s.nextConn
  nextSub : t.nextSub = s.nextSub
  log : t.log = s.log

theorem started {s : State} (h : Inv s) (c : Nat) (w : Want) : Started s c (start s c w) := by
  have hlt : ∀ j g, s.gor j = some g → j ≠ s.nextGor ∧ j ≠ s.nextGor + 1 := fun j g hg => by
    have := (h.gorLt j g hg).1
    omega
  cases w with
  | heads => exact {
      old := fun j g hg => by
        show setAt _ _ _ _ = _
        rw [setAt_ne (hlt j g hg).1]; exact hg
      new := fun j g hg => by
        rcases setAt_some hg with ⟨rfl, rfl⟩ | ⟨_, hg⟩
        · exact .inr ⟨Nat.le_refl _, Nat.lt_succ_self _, _, rfl⟩
        · exact .inl hg
      grows := Nat.le_succ _
      conn := rfl, nextConn := rfl, nextSub := rfl, log := rfl }
  | pending => exact {
      old := fun j g hg => by
        show setAt _ _ _ _ = _
        rw [setAt_ne (hlt j g hg).1]; exact hg
      new := fun j g hg => by
        rcases setAt_some hg with ⟨rfl, rfl⟩ | ⟨_, hg⟩
        · exact .inr ⟨Nat.le_refl _, Nat.lt_succ_self _, _, rfl⟩
        · exact .inl hg
      grows := Nat.le_succ _
      conn := rfl, nextConn := rfl, nextSub := rfl, log := rfl }
  | logs cr => exact {
      old := fun j g hg => by
        show setAt _ _ _ _ = _
        rw [setAt_ne (hlt j g hg).2, setAt_ne (hlt j g hg).1]; exact hg
      new := fun j g hg => by
        rcases setAt_some hg with ⟨rfl, rfl⟩ | ⟨_, hg⟩
        · exact .inr ⟨Nat.le_succ _, Nat.lt_succ_self _, _, rfl⟩
        · rcases setAt_some hg with ⟨rfl, rfl⟩ | ⟨_, hg⟩
          · exact .inr ⟨Nat.le_refl _, by show _ < s.nextGor + 2; omega, _, rfl⟩
          · exact .inl hg
      grows := by show _ ≤ s.nextGor + 2; omega
      conn := rfl, nextConn := rfl, nextSub := rfl, log := rfl }

theorem notes_fresh {s : State} (h : Inv s) {c : Nat} {k : Conn} (hk : s.conn c = some k) {j : Nat}
    (hj : s.nextGor ≤ j) : notesBy j k.out = [] := by
  unfold notesBy
  rw [List.filterMap_eq_nil_iff]
  intro o ho
  cases o with
  | subscribed _ => rfl
  | cancelled _ _ => rfl
  | note i j' it =>
    show (if _ then _ else _) = _
    rw [if_neg]
    intro he
    subst he
    obtain ⟨g, hg, _⟩ := h.notes c k i _ it hk ho
    have := (h.gorLt _ g hg).1
    omega

theorem inv_subscribe {s : State} (h : Inv s) (c : Nat) (w : Want) (ok : Bool) : Inv (subscribe c w ok s) := by
  unfold subscribe
  cases hk : s.conn c with
  | none => exact h
  | some k =>
    dsimp only
    split
    · next hc =>
      have st := started h c w
      have hconn : ∀ g j, s.gor j = some g →
          ∀ k', setAt s.conn c { k with subs := s.nextSub :: k.subs, owed := some (.subscribed s.nextSub) } g.conn = some k' →
          ∃ k0, s.conn g.conn = some k0 ∧ k'.out = k0.out ∧ (g.conn = c → k0 = k) ∧ (k'.subs = k0.subs ∨ k'.subs = s.nextSub :: k0.subs) := by
        intro g j hg k' hk'
        rcases setAt_some hk' with ⟨he, rfl⟩ | ⟨hne, hk'⟩
        · exact ⟨k, by rw [he]; exact hk, rfl, fun _ => rfl, .inr rfl⟩
        · exact ⟨k', hk', rfl, fun he => absurd he hne, .inl rfl⟩
      exact {
        gorLt := fun j g hg => by
          rcases st.new j g hg with hg | ⟨_, h2, job, rfl⟩
          · have := h.gorLt j g hg
            exact ⟨Nat.lt_of_lt_of_le this.1 st.grows, Nat.lt_succ_of_lt this.2⟩
          · exact ⟨h2, Nat.lt_succ_self _⟩
        connLt := fun c' k' hk' => by
          show c' < (start s c w).nextConn
          rw [st.nextConn]
          rcases setAt_some hk' with ⟨rfl, _⟩ | ⟨_, hk'⟩
          · exact h.connLt _ _ hk
          · exact h.connLt _ _ hk'
        has := fun j g hg => by
          by_cases he : g.conn = c
          · exact ⟨_, if_pos he⟩
          · rcases st.new j g hg with hg | ⟨_, _, job, rfl⟩
            · obtain ⟨k', hk'⟩ := h.has j g hg
              exact ⟨k', (setAt_ne he).trans hk'⟩
            · exact absurd rfl he
        course := fun j g k' hg hk' => by
          show Course (start s c w).log j g k'.out
          rw [st.log]
          rcases st.new j g hg with hg | ⟨h1, _, job, rfl⟩
          · obtain ⟨k0, h0, h1, _⟩ := hconn g j hg k' hk'
            rw [h1]
            exact h.course j g k0 hg h0
          · rcases setAt_some hk' with ⟨_, rfl⟩ | ⟨hne, _⟩
            · exact {
                since := Nat.le_refl _
                bus := fun _ => rfl
                till := fun _ hu => nomatch hu
                held := fun _ hx => nomatch hx
                told := ⟨[], by rw [notes_fresh h hk h1]; exact .nil, .nil, fun _ he => nomatch he⟩ }
            · exact absurd rfl hne
        bus := fun j g k' hg hk' => by
          rcases st.new j g hg with hg | ⟨h1, _, job, rfl⟩
          · obtain ⟨k0, h0, _, _, h2⟩ := hconn g j hg k' hk'
            rw [h.bus j g k0 hg h0]
            rcases h2 with h2 | h2
            · rw [h2]
            · rw [h2, List.mem_cons]
              have := (h.gorLt j g hg).2
              constructor
              · exact .inr
              · rintro (he | he)
                · omega
                · exact he
          · rcases setAt_some hk' with ⟨_, rfl⟩ | ⟨hne, _⟩
            · exact ⟨fun _ => List.mem_cons_self, fun _ => rfl⟩
            · exact absurd rfl hne
        own := fun c' k' i hk' hi => by
          have old : ∀ (c'' : Nat) (k'' : Conn), s.conn c'' = some k'' → i ∈ k''.subs →
              i < s.nextSub + 1 ∧ ∀ j g, (start s c w).gor j = some g → g.sub = i → g.conn = c'' := by
            intro c'' k'' hk'' hi
            obtain ⟨h1, h2⟩ := h.own c'' k'' i hk'' hi
            refine ⟨Nat.lt_succ_of_lt h1, fun j g hg hs => ?_⟩
            rcases st.new j g hg with hg | ⟨_, _, job, rfl⟩
            · exact h2 j g hg hs
            · have : s.nextSub = i := hs
              omega
          rcases setAt_some hk' with ⟨rfl, rfl⟩ | ⟨_, hk'⟩
          · rcases List.mem_cons.1 hi with rfl | hi
            · refine ⟨Nat.lt_succ_self _, fun j g hg hs => ?_⟩
              rcases st.new j g hg with hg | ⟨_, _, job, rfl⟩
              · have := (h.gorLt j g hg).2
                omega
              · rfl
            · exact old _ k hk hi
          · exact old c' k' hk' hi
        notes := fun c' k' i j it hk' hn => by
          rcases setAt_some hk' with ⟨rfl, rfl⟩ | ⟨_, hk'⟩
          · obtain ⟨g, hg, hh⟩ := h.notes _ k i j it hk hn
            exact ⟨g, st.old j g hg, hh⟩
          · obtain ⟨g, hg, hh⟩ := h.notes _ k' i j it hk' hn
            exact ⟨g, st.old j g hg, hh⟩
        answered := fun c' k' i hk' hn => by
          have old : ∀ (c'' : Nat) (k'' : Conn), s.conn c'' = some k'' → (.subscribed i ∈ k''.out ∨ k''.owed = some (.subscribed i)) →
              i < s.nextSub + 1 ∧ ∀ j g, (start s c w).gor j = some g → g.sub = i → g.conn = c'' := by
            intro c'' k'' hk'' hi
            obtain ⟨h1, h2⟩ := h.answered c'' k'' i hk'' hi
            refine ⟨Nat.lt_succ_of_lt h1, fun j g hg hs => ?_⟩
            rcases st.new j g hg with hg | ⟨_, _, job, rfl⟩
            · exact h2 j g hg hs
            · have : s.nextSub = i := hs
              omega
          rcases setAt_some hk' with ⟨rfl, rfl⟩ | ⟨_, hk'⟩
          · rcases hn with hn | hn
            · exact old _ k hk (.inl hn)
            · injection hn with hn
              injection hn with hn
              subst hn
              refine ⟨Nat.lt_succ_self _, fun j g hg hs => ?_⟩
              rcases st.new j g hg with hg | ⟨_, _, job, rfl⟩
              · have := (h.gorLt j g hg).2
                omega
              · rfl
          · exact old c' k' hk' hn
        owed := fun c' k' o hk' ho => by
          rcases setAt_some hk' with ⟨rfl, rfl⟩ | ⟨_, hk'⟩
          · injection ho with ho
            exact .inl ⟨_, ho.symm⟩
          · exact h.owed c' k' o hk' ho
        stopped := fun c' k' hk' hr => by
          rcases setAt_some hk' with ⟨rfl, rfl⟩ | ⟨_, hk'⟩
          · rw [show ({ k with subs := s.nextSub :: k.subs, owed := some (.subscribed s.nextSub) } : Conn).reading = k.reading from rfl] at hr
            rw [hc.1] at hr
            cases hr
          · exact h.stopped c' k' hk' hr }
    · exact h

/-- The goroutines are changed one by one, and keep their connection, subscription and job. -/
theorem inv_gors {s : State} (h : Inv s) (f : Nat → Gor → Gor) (conn' : Nat → Option Conn) (x : List Ev)
    (hf : ∀ j g, (f j g).conn = g.conn ∧ (f j g).sub = g.sub)
    (hc : ∀ c k', conn' c = some k' → ∃ k, s.conn c = some k ∧ k'.out = k.out ∧
      (∀ i, i ∈ k'.subs → i ∈ k.subs) ∧ (k'.owed = k.owed ∨ ∃ i b, k'.owed = some (.cancelled i b)) ∧
      (k'.reading = false → k'.subs = []))
    (hc' : ∀ c k, s.conn c = some k → ∃ k', conn' c = some k')
    (hco : ∀ j g k k', s.gor j = some g → s.conn g.conn = some k → conn' g.conn = some k' →
      Course (s.log ++ x) j (f j g) k'.out ∧ ((f j g).onBus = true ↔ g.sub ∈ k'.subs)) :
    Inv { s with conn := conn', gor := fun j => (s.gor j).map (f j), log := s.log ++ x } := by
  have hg : ∀ j g', (s.gor j).map (f j) = some g' → ∃ g, s.gor j = some g ∧ g' = f j g := by
    intro j g' hh
    obtain ⟨g, h1, h2⟩ := Option.map_eq_some_iff.1 hh
    exact ⟨g, h1, h2.symm⟩
  exact {
    gorLt := fun j g' hh => by
      obtain ⟨g, h1, rfl⟩ := hg j g' hh
      rw [(hf j g).2]
      exact h.gorLt j g h1
    connLt := fun c k' hk' => by
      obtain ⟨k, hk, _⟩ := hc c k' hk'
      exact h.connLt c k hk
    has := fun j g' hh => by
      obtain ⟨g, h1, rfl⟩ := hg j g' hh
      rw [(hf j g).1]
      obtain ⟨k, hk⟩ := h.has j g h1
      exact hc' _ k hk
    course := fun j g' k' hh hk' => by
      obtain ⟨g, h1, rfl⟩ := hg j g' hh
      rw [(hf j g).1] at hk'
      obtain ⟨k, hk, _⟩ := hc _ k' hk'
      exact (hco j g k k' h1 hk hk').1
    bus := fun j g' k' hh hk' => by
      obtain ⟨g, h1, rfl⟩ := hg j g' hh
      rw [(hf j g).1] at hk'
      rw [(hf j g).2]
      obtain ⟨k, hk, _⟩ := hc _ k' hk'
      exact (hco j g k k' h1 hk hk').2
    own := fun c k' i hk' hi => by
      obtain ⟨k, hk, _, h2, _⟩ := hc c k' hk'
      obtain ⟨h3, h4⟩ := h.own c k i hk (h2 i hi)
      refine ⟨h3, fun j g' hh hs => ?_⟩
      obtain ⟨g, h1, rfl⟩ := hg j g' hh
      rw [(hf j g).1]
      rw [(hf j g).2] at hs
      exact h4 j g h1 hs
    notes := fun c k' i j it hk' hn => by
      obtain ⟨k, hk, ho, _⟩ := hc c k' hk'
      rw [ho] at hn
      obtain ⟨g, h1, h2, h3⟩ := h.notes c k i j it hk hn
      exact ⟨f j g, by show (s.gor j).map (f j) = _; rw [h1]; rfl, by rw [(hf j g).1]; exact h2, by rw [(hf j g).2]; exact h3⟩
    answered := fun c k' i hk' hn => by
      obtain ⟨k, hk, ho, _, hw, _⟩ := hc c k' hk'
      have hn' : .subscribed i ∈ k.out ∨ k.owed = some (.subscribed i) := by
        rcases hn with hn | hn
        · rw [ho] at hn
          exact .inl hn
        · rcases hw with hw | ⟨a, b, hw⟩
          · rw [hw] at hn
            exact .inr hn
          · rw [hw] at hn
            injection hn with hn
            cases hn
      obtain ⟨h3, h4⟩ := h.answered c k i hk hn'
      refine ⟨h3, fun j g' hh hs => ?_⟩
      obtain ⟨g, h1, rfl⟩ := hg j g' hh
      rw [(hf j g).1]
      rw [(hf j g).2] at hs
      exact h4 j g h1 hs
    owed := fun c k' o hk' ho => by
      obtain ⟨k, hk, _, _, hw, _⟩ := hc c k' hk'
      rcases hw with hw | ⟨a, b, hw⟩
      · rw [hw] at ho
        exact h.owed c k o hk ho
      · rw [hw] at ho
        injection ho with ho
        exact .inr ⟨a, b, ho.symm⟩
    stopped := fun c k' hk' hr => by
      obtain ⟨k, hk, _, _, _, hst⟩ := hc c k' hk'
      exact hst hr }

theorem unhook_same (n : Nat) (is : List Nat) (g : Gor) :
    (unhook n is g).conn = g.conn ∧ (unhook n is g).sub = g.sub ∧ (unhook n is g).job = g.job ∧
    (unhook n is g).running = g.running ∧ (unhook n is g).holding = g.holding := by
  unfold unhook
  split <;> exact ⟨rfl, rfl, rfl, rfl, rfl⟩

theorem unhook_bus (n : Nat) (is : List Nat) (g : Gor) :
    (unhook n is g).onBus = true ↔ g.onBus = true ∧ g.sub ∉ is := by
  unfold unhook
  split
  · next h => simp [h.2]
  · next h =>
    constructor
    · intro hb
      exact ⟨hb, fun hi => h ⟨hb, hi⟩⟩
    · exact fun hb => hb.1

theorem offer_same (e : Ev) (r : Bool) (g : Gor) :
    (offer e r g).conn = g.conn ∧ (offer e r g).sub = g.sub ∧ (offer e r g).job = g.job ∧
    (offer e r g).running = g.running ∧ (offer e r g).onBus = g.onBus := by
  unfold offer
  split <;> exact ⟨rfl, rfl, rfl, rfl, rfl⟩

theorem inv_unsubscribe {s : State} (h : Inv s) (c i : Nat) : Inv (unsubscribe c i s) := by
  unfold unsubscribe
  cases hk : s.conn c with
  | none => exact h
  | some k =>
    dsimp only
    split
    · next hr =>
      split
      · next hi =>
        have := inv_gors h (fun _ => unhook s.log.length [i])
          (setAt s.conn c { k with subs := k.subs.filter (· ≠ i), owed := some (.cancelled i true) }) []
          (fun _ g => ⟨(unhook_same _ _ g).1, (unhook_same _ _ g).2.1⟩)
          (fun c' k' hk' => by
            rcases setAt_some hk' with ⟨rfl, rfl⟩ | ⟨_, hk'⟩
            · refine ⟨k, hk, rfl, fun x hx => (List.mem_filter.1 hx).1, .inr ⟨i, true, rfl⟩, fun hh => ?_⟩
              have hh' : k.reading = false := hh
              rw [hr.1] at hh'
              cases hh'
            · exact ⟨k', hk', rfl, fun _ hx => hx, .inl rfl, h.stopped c' k' hk'⟩)
          (fun c' k' hk' => by
            by_cases he : c' = c
            · exact ⟨_, if_pos he⟩
            · exact ⟨k', (setAt_ne he).trans hk'⟩)
          (fun j g k0 k' hg hk0 hk' => by
            rw [List.append_nil]
            have hb := h.bus j g k0 hg hk0
            have ho : k'.out = k0.out := by
              rcases setAt_some hk' with ⟨he, rfl⟩ | ⟨_, hk'⟩
              · rw [he, hk] at hk0
                injection hk0 with hk0
                rw [← hk0]
              · rw [hk0] at hk'
                injection hk' with hk'
                rw [hk']
            rw [ho]
            refine ⟨(h.course j g k0 hg hk0).unhook [i], ?_⟩
            rw [unhook_bus, hb]
            rcases setAt_some hk' with ⟨he, rfl⟩ | ⟨hne, hk'⟩
            · rw [he, hk] at hk0
              injection hk0 with hk0
              subst hk0
              simp [List.mem_filter]
            · rw [hk0] at hk'
              injection hk' with hk'
              subst hk'
              rw [List.mem_singleton]
              constructor
              · exact fun hx => hx.1
              · exact fun hx => ⟨hx, fun hs => hne ((h.own c k i hk hi).2 j g hg hs)⟩)
        rw [List.append_nil] at this
        exact this
      · next hi =>
        have := inv_gors h (fun _ g => g) (setAt s.conn c { k with owed := some (.cancelled i false) }) []
          (fun _ g => ⟨rfl, rfl⟩)
          (fun c' k' hk' => by
            rcases setAt_some hk' with ⟨rfl, rfl⟩ | ⟨_, hk'⟩
            · exact ⟨k, hk, rfl, fun _ hx => hx, .inr ⟨i, false, rfl⟩, h.stopped _ k hk⟩
            · exact ⟨k', hk', rfl, fun _ hx => hx, .inl rfl, h.stopped c' k' hk'⟩)
          (fun c' k' hk' => by
            by_cases he : c' = c
            · exact ⟨_, if_pos he⟩
            · exact ⟨k', (setAt_ne he).trans hk'⟩)
          (fun j g k0 k' hg hk0 hk' => by
            rw [List.append_nil]
            have ho : k'.out = k0.out ∧ k'.subs = k0.subs := by
              rcases setAt_some hk' with ⟨he, rfl⟩ | ⟨_, hk'⟩
              · rw [he, hk] at hk0
                injection hk0 with hk0
                rw [← hk0]
                exact ⟨rfl, rfl⟩
              · rw [hk0] at hk'
                injection hk' with hk'
                rw [hk']
                exact ⟨rfl, rfl⟩
            rw [ho.1, ho.2]
            exact ⟨h.course j g k0 hg hk0, h.bus j g k0 hg hk0⟩)
        rw [List.append_nil] at this
        rw [show (fun j => (s.gor j).map (fun g => g)) = s.gor from funext (fun j => Option.map_id_fun ▸ rfl)] at this
        exact this
    · exact h

theorem inv_readEnd {s : State} (h : Inv s) (c : Nat) : Inv (readEnd c s) := by
  unfold readEnd
  cases hk : s.conn c with
  | none => exact h
  | some k =>
    dsimp only
    split
    · have := inv_gors h (fun _ => unhook s.log.length k.subs)
        (setAt s.conn c { k with reading := false, subs := [] }) []
        (fun _ g => ⟨(unhook_same _ _ g).1, (unhook_same _ _ g).2.1⟩)
        (fun c' k' hk' => by
          rcases setAt_some hk' with ⟨rfl, rfl⟩ | ⟨_, hk'⟩
          · exact ⟨k, hk, rfl, (fun x hx => nomatch hx), .inl rfl, fun _ => rfl⟩
          · exact ⟨k', hk', rfl, fun _ hx => hx, .inl rfl, h.stopped c' k' hk'⟩)
        (fun c' k' hk' => by
          by_cases he : c' = c
          · exact ⟨_, if_pos he⟩
          · exact ⟨k', (setAt_ne he).trans hk'⟩)
        (fun j g k0 k' hg hk0 hk' => by
          rw [List.append_nil]
          have hb := h.bus j g k0 hg hk0
          have ho : k'.out = k0.out := by
            rcases setAt_some hk' with ⟨he, rfl⟩ | ⟨_, hk'⟩
            · rw [he, hk] at hk0
              injection hk0 with hk0
              rw [← hk0]
            · rw [hk0] at hk'
              injection hk' with hk'
              rw [hk']
          rw [ho]
          refine ⟨(h.course j g k0 hg hk0).unhook k.subs, ?_⟩
          rw [unhook_bus, hb]
          rcases setAt_some hk' with ⟨he, rfl⟩ | ⟨hne, hk'⟩
          · rw [he, hk] at hk0
            injection hk0 with hk0
            subst hk0
            simp
          · rw [hk0] at hk'
            injection hk' with hk'
            subst hk'
            constructor
            · exact fun hx => hx.1
            · exact fun hx => ⟨hx, fun hs => hne ((h.own c k g.sub hk hs).2 j g hg rfl)⟩)
      rw [List.append_nil] at this
      exact this
    · exact h

theorem inv_publish {s : State} (h : Inv s) (b : Body) (r : List Nat) : Inv (publish b r s) := by
  unfold publish
  exact inv_gors h (fun j => offer ⟨s.log.length, b⟩ (r.contains j)) s.conn [⟨s.log.length, b⟩]
    (fun _ g => ⟨(offer_same _ _ g).1, (offer_same _ _ g).2.1⟩)
    (fun c' k' hk' => ⟨k', hk', rfl, fun _ hx => hx, .inl rfl, h.stopped c' k' hk'⟩)
    (fun c' k' hk' => ⟨k', hk'⟩)
    (fun j g k0 k' hg hk0 hk' => by
      rw [hk0] at hk'
      injection hk' with hk'
      subst hk'
      rw [(offer_same _ _ g).2.2.2.2]
      exact ⟨(h.course j g k0 hg hk0).offer b _, h.bus j g k0 hg hk0⟩)

theorem inv_down {s : State} (h : Inv s) (c : Nat) : Inv (down c s) := by
  unfold down
  cases hk : s.conn c with
  | none => exact h
  | some k =>
    dsimp only
    have := inv_gors h (fun _ g => g) (setAt s.conn c { k with up := false }) []
      (fun _ g => ⟨rfl, rfl⟩)
      (fun c' k' hk' => by
        rcases setAt_some hk' with ⟨rfl, rfl⟩ | ⟨_, hk'⟩
        · exact ⟨k, hk, rfl, fun _ hx => hx, .inl rfl, h.stopped _ k hk⟩
        · exact ⟨k', hk', rfl, fun _ hx => hx, .inl rfl, h.stopped c' k' hk'⟩)
      (fun c' k' hk' => by
        by_cases he : c' = c
        · exact ⟨_, if_pos he⟩
        · exact ⟨k', (setAt_ne he).trans hk'⟩)
      (fun j g k0 k' hg hk0 hk' => by
        rw [List.append_nil]
        have ho : k'.out = k0.out ∧ k'.subs = k0.subs := by
          rcases setAt_some hk' with ⟨he, rfl⟩ | ⟨_, hk'⟩
          · rw [he, hk] at hk0
            injection hk0 with hk0
            rw [← hk0]
            exact ⟨rfl, rfl⟩
          · rw [hk0] at hk'
            injection hk' with hk'
            rw [hk']
            exact ⟨rfl, rfl⟩
        rw [ho.1, ho.2]
        exact ⟨h.course j g k0 hg hk0, h.bus j g k0 hg hk0⟩)
    rw [List.append_nil] at this
    rw [show (fun j => (s.gor j).map (fun g => g)) = s.gor from funext (fun j => Option.map_id_fun ▸ rfl)] at this
    exact this

theorem inv_reply {s : State} (h : Inv s) (c : Nat) : Inv (reply c s) := by
  unfold reply
  cases hk : s.conn c with
  | none => exact h
  | some k =>
    dsimp only
    cases ho : k.owed with
    | none => exact h
    | some o =>
      dsimp only
      have hnotes : ∀ j, notesBy j [o] = [] := by
        intro j
        rcases h.owed c k o hk ho with ⟨i, rfl⟩ | ⟨i, b, rfl⟩ <;> rfl
      have hold : ∀ c' k', setAt s.conn c { k with owed := none, out := if k.up then k.out ++ [o] else k.out } c' = some k' →
          ∃ k0, s.conn c' = some k0 ∧ k'.subs = k0.subs ∧ k'.reading = k0.reading ∧ (k'.owed = k0.owed ∨ k'.owed = none) ∧
            (k'.out = k0.out ∨ (k'.out = k0.out ++ [o] ∧ c' = c ∧ k0 = k)) := by
        intro c' k' hk'
        rcases setAt_some hk' with ⟨rfl, rfl⟩ | ⟨_, hk'⟩
        · refine ⟨k, hk, rfl, rfl, .inr rfl, ?_⟩
          dsimp only
          by_cases hu : k.up = true
          · exact .inr ⟨by rw [if_pos hu], rfl, rfl⟩
          · exact .inl (by rw [if_neg hu])
        · exact ⟨k', hk', rfl, rfl, .inl rfl, .inl rfl⟩
      exact {
        gorLt := h.gorLt
        connLt := fun c' k' hk' => by
          obtain ⟨k0, h0, _⟩ := hold c' k' hk'
          exact h.connLt c' k0 h0
        has := fun j g hg => by
          obtain ⟨k0, h0⟩ := h.has j g hg
          by_cases he : g.conn = c
          · exact ⟨_, if_pos he⟩
          · exact ⟨k0, (setAt_ne he).trans h0⟩
        course := fun j g k' hg hk' => by
          obtain ⟨k0, h0, _, _, _, h1⟩ := hold _ k' hk'
          have := h.course j g k0 hg h0
          rcases h1 with h1 | ⟨h1, _⟩
          · rw [h1]
            exact this
          · rw [h1]
            exact this.other (hnotes j)
        bus := fun j g k' hg hk' => by
          obtain ⟨k0, h0, h1, _⟩ := hold _ k' hk'
          rw [h1]
          exact h.bus j g k0 hg h0
        own := fun c' k' i hk' hi => by
          obtain ⟨k0, h0, h1, _⟩ := hold _ k' hk'
          rw [h1] at hi
          exact h.own c' k0 i h0 hi
        notes := fun c' k' i j it hk' hn => by
          obtain ⟨k0, h0, _, _, _, h1⟩ := hold _ k' hk'
          rcases h1 with h1 | ⟨h1, _⟩
          · rw [h1] at hn
            exact h.notes c' k0 i j it h0 hn
          · rw [h1] at hn
            rcases List.mem_append.1 hn with hn | hn
            · exact h.notes c' k0 i j it h0 hn
            · rw [List.mem_singleton] at hn
              rcases h.owed c k o hk ho with ⟨i, rfl⟩ | ⟨i, b, rfl⟩ <;> cases hn
        answered := fun c' k' i hk' hn => by
          obtain ⟨k0, h0, _, _, h2, h1⟩ := hold _ k' hk'
          apply h.answered c' k0 i h0
          rcases hn with hn | hn
          · rcases h1 with h1 | ⟨h1, rfl, rfl⟩
            · rw [h1] at hn
              exact .inl hn
            · rw [h1] at hn
              rcases List.mem_append.1 hn with hn | hn
              · exact .inl hn
              · rw [List.mem_singleton] at hn
                rw [hn]
                exact .inr ho
          · rcases h2 with h2 | h2
            · rw [h2] at hn
              exact .inr hn
            · rw [h2] at hn
              cases hn
        owed := fun c' k' o' hk' ho' => by
          obtain ⟨k0, h0, _, _, h2, _⟩ := hold _ k' hk'
          rcases h2 with h2 | h2
          · rw [h2] at ho'
            exact h.owed c' k0 o' h0 ho'
          · rw [h2] at ho'
            cases ho'
        stopped := fun c' k' hk' hr => by
          obtain ⟨k0, h0, h1, h2, _⟩ := hold _ k' hk'
          rw [h2] at hr
          rw [h1]
          exact h.stopped c' k0 h0 hr }

theorem note_mem {o : Out} {is : List Item} {i j : Nat} (h : o ∈ is.map (.note i j)) : ∃ it, o = .note i j it := by
  obtain ⟨it, _, rfl⟩ := List.mem_map.1 h
  exact ⟨it, rfl⟩

/-- A goroutine gives up its event, and its connection is written to. -/
theorem inv_handled {s : State} (h : Inv s) {j : Nat} {g g' : Gor} {k k' : Conn} (hg : s.gor j = some g)
    (hk : s.conn g.conn = some k) (hs : g'.conn = g.conn ∧ g'.sub = g.sub ∧ g'.onBus = g.onBus)
    (hk1 : k'.subs = k.subs ∧ k'.reading = k.reading ∧ k'.owed = k.owed)
    (ho : ∃ is : List Item, k'.out = k.out ++ is.map (.note g.sub j)) (hc : Course s.log j g' k'.out) :
    Inv { s with gor := setAt s.gor j g', conn := setAt s.conn g.conn k' } := by
  obtain ⟨is, ho⟩ := ho
  have hold : ∀ c a, setAt s.conn g.conn k' c = some a →
      ∃ a0, s.conn c = some a0 ∧ a.subs = a0.subs ∧ a.reading = a0.reading ∧ a.owed = a0.owed ∧
        (a.out = a0.out ∨ (a.out = a0.out ++ is.map (.note g.sub j) ∧ c = g.conn)) := by
    intro c a ha
    rcases setAt_some ha with ⟨rfl, rfl⟩ | ⟨_, ha⟩
    · exact ⟨k, hk, hk1.1, hk1.2.1, hk1.2.2, .inr ⟨ho, rfl⟩⟩
    · exact ⟨a, ha, rfl, rfl, rfl, .inl rfl⟩
  have hgor : ∀ i a, setAt s.gor j g' i = some a →
      ∃ a0, s.gor i = some a0 ∧ a.conn = a0.conn ∧ a.sub = a0.sub ∧ a.onBus = a0.onBus ∧ (i = j ∧ a = g' ∨ i ≠ j ∧ a = a0) := by
    intro i a ha
    rcases setAt_some ha with ⟨rfl, rfl⟩ | ⟨hn, ha⟩
    · exact ⟨g, hg, hs.1, hs.2.1, hs.2.2, .inl ⟨rfl, rfl⟩⟩
    · exact ⟨a, ha, rfl, rfl, rfl, .inr ⟨hn, rfl⟩⟩
  have hg2 : ∀ i a0, s.gor i = some a0 → ∃ a, setAt s.gor j g' i = some a ∧ a.conn = a0.conn ∧ a.sub = a0.sub := by
    intro i a0 ha
    by_cases he : i = j
    · subst he
      rw [hg] at ha
      injection ha with ha
      subst ha
      exact ⟨g', setAt_eq, hs.1, hs.2.1⟩
    · exact ⟨a0, (setAt_ne he).trans ha, rfl, rfl⟩
  exact {
    gorLt := fun i a ha => by
      obtain ⟨a0, h0, _, h2, _⟩ := hgor i a ha
      rw [h2]
      exact h.gorLt i a0 h0
    connLt := fun c a ha => by
      obtain ⟨a0, h0, _⟩ := hold c a ha
      exact h.connLt c a0 h0
    has := fun i a ha => by
      obtain ⟨a0, h0, h1, _⟩ := hgor i a ha
      rw [h1]
      obtain ⟨b, hb⟩ := h.has i a0 h0
      by_cases he : a0.conn = g.conn
      · exact ⟨_, if_pos he⟩
      · exact ⟨b, (setAt_ne he).trans hb⟩
    course := fun i a b ha hb => by
      obtain ⟨a0, h0, h1, _, _, h4⟩ := hgor i a ha
      rcases h4 with ⟨rfl, rfl⟩ | ⟨hn, rfl⟩
      · have hb := hb
        rw [hs.1] at hb
        have hb : setAt s.conn g.conn k' g.conn = some b := hb
        rw [setAt_eq] at hb
        injection hb with hb
        rw [← hb]
        exact hc
      · obtain ⟨b0, hb0, _, _, _, hw⟩ := hold _ b hb
        have := h.course i a b0 h0 hb0
        rcases hw with hw | ⟨hw, _⟩
        · rw [hw]
          exact this
        · rw [hw]
          exact this.other (notesBy_other (fun he => hn he.symm) _ _)
    bus := fun i a b ha hb => by
      obtain ⟨a0, h0, h1, h2, h3, _⟩ := hgor i a ha
      obtain ⟨b0, hb0, hb1, _⟩ := hold _ b hb
      rw [h1] at hb0
      rw [h3, h2, hb1]
      exact h.bus i a0 b0 h0 hb0
    own := fun c b i hb hi => by
      obtain ⟨b0, hb0, hb1, _⟩ := hold _ b hb
      rw [hb1] at hi
      obtain ⟨h1, h2⟩ := h.own c b0 i hb0 hi
      refine ⟨h1, fun x a ha hx => ?_⟩
      obtain ⟨a0, h0, h4, h5, _⟩ := hgor x a ha
      rw [h5] at hx
      rw [h4]
      exact h2 x a0 h0 hx
    notes := fun c b i x it hb hn => by
      obtain ⟨b0, hb0, _, _, _, hw⟩ := hold _ b hb
      have old : .note i x it ∈ b0.out → ∃ a, setAt s.gor j g' x = some a ∧ a.conn = c ∧ a.sub = i := by
        intro hn
        obtain ⟨a0, h0, h1, h2⟩ := h.notes c b0 i x it hb0 hn
        obtain ⟨a, ha, h3, h4⟩ := hg2 x a0 h0
        exact ⟨a, ha, h3.trans h1, h4.trans h2⟩
      rcases hw with hw | ⟨hw, rfl⟩
      · rw [hw] at hn
        exact old hn
      · rw [hw] at hn
        rcases List.mem_append.1 hn with hn | hn
        · exact old hn
        · obtain ⟨it', he⟩ := note_mem hn
          cases he
          exact ⟨g', setAt_eq, hs.1, hs.2.1⟩
    answered := fun c b i hb hn => by
      obtain ⟨b0, hb0, _, _, hbo, hw⟩ := hold _ b hb
      have hn' : .subscribed i ∈ b0.out ∨ b0.owed = some (.subscribed i) := by
        rcases hn with hn | hn
        · rcases hw with hw | ⟨hw, _⟩
          · rw [hw] at hn
            exact .inl hn
          · rw [hw] at hn
            rcases List.mem_append.1 hn with hn | hn
            · exact .inl hn
            · obtain ⟨it', he⟩ := note_mem hn
              cases he
        · rw [hbo] at hn
          exact .inr hn
      obtain ⟨h1, h2⟩ := h.answered c b0 i hb0 hn'
      refine ⟨h1, fun x a ha hx => ?_⟩
      obtain ⟨a0, h0, h4, h5, _⟩ := hgor x a ha
      rw [h5] at hx
      rw [h4]
      exact h2 x a0 h0 hx
    owed := fun c b o hb hb' => by
      obtain ⟨b0, hb0, _, _, hbo, _⟩ := hold _ b hb
      rw [hbo] at hb'
      exact h.owed c b0 o hb0 hb'
    stopped := fun c b hb hr => by
      obtain ⟨b0, hb0, h1, h2, _⟩ := hold _ b hb
      rw [h2] at hr
      rw [h1]
      exact h.stopped c b0 hb0 hr }

theorem setAt_self {m : Nat → Option α} {i : Nat} {a : α} (h : m i = some a) : setAt m i a = m := by
  funext j
  by_cases hj : j = i
  · subst hj
    rw [setAt_eq, h]
  · exact setAt_ne hj

theorem inv_handle {s : State} (h : Inv s) (j : Nat) : Inv (handle j s) := by
  unfold handle
  cases hg : s.gor j with
  | none => exact h
  | some g =>
    dsimp only
    cases he : g.holding with
    | none => exact h
    | some e =>
      dsimp only
      obtain ⟨k, hk⟩ := h.has j g hg
      have hc := h.course j g k hg hk
      cases hi : g.job.items e.body with
      | none =>
        have := inv_handled h (g' := { g with holding := none, running := false }) (k' := k) hg hk ⟨rfl, rfl, rfl⟩
          ⟨rfl, rfl, rfl⟩ ⟨[], by rw [List.map_nil, List.append_nil]⟩ (hc.drop false)
        rw [setAt_self hk] at this
        exact this
      | some is =>
        dsimp only
        rw [hk]
        dsimp only
        by_cases hu : k.up = true
        · rw [if_pos hu]
          exact inv_handled h hg hk ⟨rfl, rfl, rfl⟩ ⟨rfl, rfl, rfl⟩ ⟨is, rfl⟩ (hc.write he hi)
        · rw [if_neg hu]
          exact inv_handled h hg hk ⟨rfl, rfl, rfl⟩ ⟨rfl, rfl, rfl⟩ ⟨[], by rw [List.map_nil, List.append_nil]⟩ (hc.drop g.running)

theorem inv_step {s : State} (h : Inv s) (o : Op) : Inv (step s o) := by
  cases o with
  | connect => exact inv_connect h
  | subscribe c w ok => exact inv_subscribe h c w ok
  | unsubscribe c i => exact inv_unsubscribe h c i
  | reply c => exact inv_reply h c
  | publish b r => exact inv_publish h b r
  | handle j => exact inv_handle h j
  | down c => exact inv_down h c
  | readEnd c => exact inv_readEnd h c

theorem inv_foldl {s : State} (h : Inv s) (ops : List Op) : Inv (ops.foldl step s) := by
  induction ops generalizing s with
  | nil => exact h
  | cons o ops ih => exact ih (inv_step h o)

theorem inv_run (ops : List Op) : Inv (run ops) := inv_foldl inv_init ops

end Sock
