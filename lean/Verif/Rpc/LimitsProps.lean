import Verif.Rpc.LimitsLemmas
/-!
# Limits on requests (C97)

A node answers at most the configured number of requests of one client within any window of time, at most the configured number of calls of a method, works
no longer for a client than configured, serves no more connections at a time than configured, forgets clients that are gone, and no sequence of
requests brings it down. Requests within the limits are not refused.

Per text that stands for a client, the counts are right (`requests_limited`, `request_passes_iff`, `methods_limited`, `call_starts_iff`) until somebody empties the tables,
which anybody may. But clients choose that text (`header_evades`, `ports_are_clients`), a body with many calls counts once (`batches_evade`),
calls that take too long are free (`timeouts_are_free`), connections are not counted (`one_client_unlimited`), and new names of methods can end the process
(`two_new_methods_crash`).
-/
namespace Rpc.Limits

/-- Since the tables were last emptied, at most `limit` requests of a client passed within any window. -/
theorem requests_limited (c : Conf) (ops : List Op) (hc : Clocked ops) (k : Text) (t : Nat) :
    within c.window t (passes (run c ops).2 k) ≤ c.limit := by
  obtain ⟨T, hT⟩ : ∃ T, ∀ x ∈ ops.filterMap opTime, x ≤ T := by
    generalize ops.filterMap opTime = l
    induction l with
    | nil => exact ⟨0, fun x hx => nomatch hx⟩
    | cons y l ih =>
      obtain ⟨n, hn⟩ := ih
      refine ⟨max n y, fun x hx => ?_⟩
      rcases List.mem_cons.1 hx with e | e
      · omega
      · have := hn x e; omega
  exact (inv_run c ops hc T hT).rateOk k t

/-- A request passes exactly if fewer than `limit` of its client passed in the window that ends now; otherwise it is refused. -/
theorem request_passes_iff (c : Conf) (ops : List Op) (hc : Clocked ops) (id now avg : Nat) (r : Request)
    (hn : ∀ x ∈ ops.filterMap opTime, x ≤ now) (ha : (run c ops).1.crashed = false) (hg : KV.get (run c ops).1.reqs id = some (r, .connected)) :
    (step c (run c ops).1 (.advance id now avg)).2 =
      if ((passes (run c ops).2 (clientIP r)).filter (fun x => decide (now < x + c.window))).length < c.limit then [.passed now (clientIP r)]
      else [.refused id] := by
  have hi := (inv_run c ops hc now hn).rate now (clientIP r) (Nat.le_refl _)
  unfold step
  rw [if_neg (by rw [ha]; exact Bool.false_ne_true)]
  show (advance c (run c ops).1 id now avg).2 = _
  unfold advance
  rw [hg]
  dsimp only
  unfold allow
  rw [hi, List.length_reverse]
  by_cases hl : ((passes (run c ops).2 (clientIP r)).filter (fun x => decide (now < x + c.window))).length < c.limit
  · rw [if_neg (by omega), if_pos hl]
  · rw [if_pos (by omega), if_neg hl]

/-- "eth_call" as the limiter of methods sees it; any text does. -/
def m1 : Text := [1]

def m2 : Text := [2]

def conf : Conf := { limit := 2, window := 10, maxConn := 3, own := [(m1, 1)], compLimit := 100, compWindow := 50, dflt := 1 }

/-- A call of `m` by the client at an address, without headers. -/
def call (host : Text) (m : Text) : Request := { forwarded := [], realIp := [], remote := host, plain := true, ask := .call m }

def two : List Op := [.arrive 0 (call [7] m1), .advance 0 100 0, .arrive 1 (call [7] m1), .advance 1 105 0, .arrive 2 (call [7] m1)]

example : Clocked two := by unfold Clocked; decide +kernel

example : passes (run conf two).2 [7] = [105, 100] ∧ KV.get (run conf two).1.reqs 2 = some (call [7] m1, .connected) ∧
    (step conf (run conf two).1 (.advance 2 109 0)).2 = [.refused 2] ∧ (step conf (run conf two).1 (.advance 2 110 0)).2 = [.passed 110 [7]] := by
  decide +kernel

/-- The same for calls of a method: at most its limit within any window, per client. -/
theorem methods_limited (c : Conf) (ops : List Op) (hc : Clocked ops) (m k : Text) (t : Nat) :
    within c.window t (counts (run c ops).2 m k) ≤ limitOf c m := by
  obtain ⟨T, hT⟩ : ∃ T, ∀ x ∈ ops.filterMap opTime, x ≤ T := by
    generalize ops.filterMap opTime = l
    induction l with
    | nil => exact ⟨0, fun x hx => nomatch hx⟩
    | cons y l ih =>
      obtain ⟨n, hn⟩ := ih
      refine ⟨max n y, fun x hx => ?_⟩
      rcases List.mem_cons.1 hx with e | e
      · omega
      · have := hn x e; omega
  exact (inv_run c ops hc T hT).methOk m k t

/-- A call of a method that has a limiter is let through exactly if fewer calls of it than its limit were, by its client, in the window that ends now. -/
theorem call_counted_iff (c : Conf) (ops : List Op) (hc : Clocked ops) (id now avg : Nat) (r : Request)
    (hn : ∀ x ∈ ops.filterMap opTime, x ≤ now) (ha : (run c ops).1.crashed = false) (hg : KV.get (run c ops).1.reqs id = some (r, .rated))
    (hr : r.ask ≠ .reset) (hi : ∀ x ∈ (run c ops).1.reqs, x.2.2 ≠ .inserting) (hm : KV.get (run c ops).1.methods (methodOf r) ≠ none) :
    (step c (run c ops).1 (.advance id now avg)).2 =
      if ((counts (run c ops).2 (methodOf r) (clientIP r)).filter (fun x => decide (now < x + c.window))).length < limitOf c (methodOf r)
      then [.counted now (methodOf r) (clientIP r)] else [.refused id] := by
  have hinv := inv_run c ops hc now hn
  cases hm' : KV.get (run c ops).1.methods (methodOf r) with
  | none => exact absurd hm' hm
  | some x =>
    obtain ⟨lim, t⟩ := x
    obtain ⟨hl, ht⟩ := hinv.meth _ _ _ hm'
    have hany : ((run c ops).1.reqs.any (fun x => decide (x.2.2 = .inserting))) = false := by
      rw [List.any_eq_false]
      exact fun x hx e => hi x hx (of_decide_eq_true e)
    unfold step
    rw [if_neg (by rw [ha]; exact Bool.false_ne_true)]
    show (advance c (run c ops).1 id now avg).2 = _
    unfold advance
    rw [hg]
    dsimp only
    rw [if_neg hr, hany, if_neg Bool.false_ne_true, hm', if_neg (by exact Bool.false_ne_true)]
    unfold advance.count
    rw [hm']
    dsimp only
    unfold allow
    rw [ht now _ (Nat.le_refl _), List.length_reverse, hl]
    by_cases hlt : ((counts (run c ops).2 (methodOf r) (clientIP r)).filter (fun x => decide (now < x + c.window))).length < limitOf c (methodOf r)
    · rw [if_neg (by omega), if_pos hlt]
    · rw [if_pos (by omega), if_neg hlt]

def counted1 : List Op := [.arrive 0 (call [7] m1), .advance 0 100 0, .advance 0 100 0, .arrive 1 (call [7] m1), .advance 1 105 0]

example : Clocked counted1 ∧ limitOf conf m1 = 1 ∧ counts (run conf counted1).2 m1 [7] = [100] ∧
    (step conf (run conf counted1).1 (.advance 1 109 0)).2 = [.refused 1] ∧ (step conf (run conf counted1).1 (.advance 1 110 0)).2 = [.counted 110 m1 [7]] ∧
    (∀ x ∈ (run conf counted1).1.reqs, x.2.2 ≠ .inserting) ∧ KV.get (run conf counted1).1.methods m1 ≠ none := by
  unfold Clocked
  decide +kernel

/-- The server starts to work on a call exactly if its client's text contains one of two addresses, or no work for the client was done since the tables
were emptied, or that done within the window and the average time of the method come to no more than the limit. -/
theorem call_starts_iff (c : Conf) (ops : List Op) (hc : Clocked ops) (id now avg : Nat) (r : Request)
    (ha : (run c ops).1.crashed = false) (hg : KV.get (run c ops).1.reqs id = some (r, .counted)) :
    (Exempt (clientIP r) ∨ works (run c ops).2 (clientIP r) = [] ∨
        timeSpent c.compWindow now (run c ops).2 (clientIP r) + (if avg = 0 then c.dflt else avg) ≤ c.compLimit →
      (step c (run c ops).1 (.advance id now avg)).2 = [.started now id r]) ∧
    (¬ (Exempt (clientIP r) ∨ works (run c ops).2 (clientIP r) = [] ∨
        timeSpent c.compWindow now (run c ops).2 (clientIP r) + (if avg = 0 then c.dflt else avg) ≤ c.compLimit) →
      (step c (run c ops).1 (.advance id now avg)).2 = [.refused id]) := by
  obtain ⟨T, hT⟩ : ∃ T, ∀ x ∈ ops.filterMap opTime, x ≤ T := by
    generalize ops.filterMap opTime = l
    induction l with
    | nil => exact ⟨0, fun x hx => nomatch hx⟩
    | cons y l ih =>
      obtain ⟨n, hn⟩ := ih
      refine ⟨max n y, fun x hx => ?_⟩
      rcases List.mem_cons.1 hx with e | e
      · omega
      · have := hn x e; omega
  have hcomp := (inv_run c ops hc T hT).comp (clientIP r)
  have hrev : ∀ l : List (Nat × Nat), spent c.compWindow now l.reverse = spent c.compWindow now l := by
    intro l
    unfold spent
    rw [List.filter_reverse, List.map_reverse, List.sum_reverse]
  have hx : Exempt (clientIP r) ↔ (contains (clientIP r) gateway || contains (clientIP r) loopback) = true := by
    rw [Bool.or_eq_true, contains_iff, contains_iff]
    exact Iff.rfl
  have hp : predict c (run c ops).1 now avg (clientIP r) = true ↔ (Exempt (clientIP r) ∨
      works (run c ops).2 (clientIP r) = [] ∨
      timeSpent c.compWindow now (run c ops).2 (clientIP r) + (if avg = 0 then c.dflt else avg) ≤ c.compLimit) := by
    unfold predict
    by_cases h1 : (contains (clientIP r) gateway || contains (clientIP r) loopback) = true
    · rw [if_pos h1]
      exact ⟨fun _ => Or.inl (hx.2 h1), fun _ => rfl⟩
    · rw [if_neg h1, hcomp]
      by_cases hw : works (run c ops).2 (clientIP r) = []
      · rw [if_pos hw]
        exact ⟨fun _ => Or.inr (Or.inl hw), fun _ => rfl⟩
      · rw [if_neg hw]
        dsimp only
        rw [hrev, decide_eq_true_iff, spent_eq]
        constructor
        · exact fun h => Or.inr (Or.inr h)
        · rintro (h | h | h)
          · exact absurd (hx.1 h) h1
          · exact absurd h hw
          · exact h
  have hs : (step c (run c ops).1 (.advance id now avg)).2 =
      if predict c (run c ops).1 now avg (clientIP r) then [.started now id r] else [.refused id] := by
    unfold step
    rw [if_neg (by rw [ha]; exact Bool.false_ne_true)]
    show (advance c (run c ops).1 id now avg).2 = _
    unfold advance
    rw [hg]
    dsimp only
    split <;> rfl
  rw [hs]
  exact ⟨fun h => if_pos (hp.2 h), fun h => if_neg (fun e => h (hp.1 e))⟩

def worked : List Op := [.arrive 0 (call [7] m1), .advance 0 100 0, .advance 0 100 0, .advance 0 100 0, .finish 0 190 90,
  .arrive 1 (call [7] m1), .advance 1 195 0, .advance 1 195 0]

example : Clocked worked ∧ works (run conf worked).2 [7] = [(190, 90)] ∧ (step conf (run conf worked).1 (.advance 1 200 10)).2 = [.started 200 1 (call [7] m1)] ∧
    (step conf (run conf worked).1 (.advance 1 200 11)).2 = [.refused 1] := by
  unfold Clocked
  decide +kernel

/-- Calls that take too long are free: if all of them do, no call of anybody is ever refused for the time spent on it. -/
theorem timeouts_are_free (c : Conf) (ops : List Op) (hc : Clocked ops) (hf : ∀ id now dur, Op.finish id now dur ∉ ops) (id now avg : Nat) (r : Request)
    (ha : (run c ops).1.crashed = false) (hg : KV.get (run c ops).1.reqs id = some (r, .counted)) :
    (step c (run c ops).1 (.advance id now avg)).2 = [.started now id r] := by
  have hnone : ∀ e ∈ (run c ops).2, ∀ t d k, e ≠ .done t d k := by
    clear hc ha hg
    induction ops using snoc_induction with
    | h0 => exact fun e he => nomatch he
    | h1 ops op ih =>
      have ih := ih (fun id now dur h => hf id now dur (List.mem_append_left _ h))
      have hop : ∀ id now dur, op ≠ .finish id now dur := fun id now dur e => hf id now dur (List.mem_append_right _ (by rw [e]; exact List.mem_cons_self))
      rw [run_snoc]
      intro e he
      rcases List.mem_append.1 he with he | he
      · revert he
        generalize (run c ops).1 = s
        intro he t d k
        unfold step at he
        split at he
        · cases he
        cases op with
        | arrive id r =>
          have he : e ∈ (arrive c s id r).2 := he
          unfold arrive at he
          split at he
          · cases he
          · split at he
            · rw [List.mem_singleton.1 he]; exact fun h => nomatch h
            · cases he
        | advance id now avg =>
          have he : e ∈ (advance c s id now avg).2 := he
          have hcount : ∀ s' r, e ∈ (advance.count c id now s' r).2 → e ≠ .done t d k := by
            intro s' r h
            unfold advance.count at h
            split at h
            · cases h
            · split at h
              · rw [List.mem_singleton.1 h]; exact fun h => nomatch h
              · rw [List.mem_singleton.1 h]; exact fun h => nomatch h
          unfold advance at he
          split at he
          · cases he
          · split at he
            · rw [List.mem_singleton.1 he]; exact fun h => nomatch h
            · rw [List.mem_singleton.1 he]; exact fun h => nomatch h
          · split at he
            · split at he
              · cases he
              · rw [List.mem_singleton.1 he]; exact fun h => nomatch h
            · split at he
              · cases he
              · split at he
                · cases he
                · exact hcount _ _ he
          · exact hcount _ _ he
          · split at he
            · rw [List.mem_singleton.1 he]; exact fun h => nomatch h
            · rw [List.mem_singleton.1 he]; exact fun h => nomatch h
          · cases he
        | finish id now dur => exact absurd rfl (hop id now dur)
        | timeout id =>
          have he : e ∈ (timeout s id).2 := he
          unfold timeout at he
          split at he <;> cases he
      · exact ih e he
  have hw : ∀ (l : List Event) (k : Text), (∀ e ∈ l, ∀ t d k, e ≠ .done t d k) → works l k = [] := by
    intro l k hl
    induction l with
    | nil => rfl
    | cons e l ih =>
      by_cases he : e = .emptied
      · unfold works since
        rw [if_pos he]
        rfl
      · rw [works_cons_other he _ (by cases e <;> first | rfl | exact absurd rfl (hl _ List.mem_cons_self _ _ _))]
        exact ih (fun e he => hl e (List.mem_cons_of_mem _ he))
  exact (call_starts_iff c ops hc id now avg r ha hg).1 (Or.inr (Or.inl (hw _ _ hnone)))

def slow : List Op := [.arrive 0 (call [7] m1), .advance 0 100 0, .advance 0 100 0, .advance 0 100 0, .timeout 0,
  .arrive 1 (call [7] m1), .advance 1 30100 0, .advance 1 30100 0]

example : Clocked slow ∧ (∀ id now dur, Op.finish id now dur ∉ slow) ∧ KV.get (run conf slow).1.reqs 1 = some (call [7] m1, .counted) := by
  refine ⟨by unfold Clocked; decide +kernel, fun id now dur h => ?_, by decide +kernel⟩
  simp [slow] at h

/-- Whoever puts 127.0.0.1 anywhere into a header is never refused for the time spent on it. -/
theorem loopback_text_exempt (c : Conf) (ops : List Op) (hc : Clocked ops) (id now avg : Nat) (r : Request)
    (hf : Has r.forwarded "127.0.0.1".toUTF8.data.toList) (ha : (run c ops).1.crashed = false) (hg : KV.get (run c ops).1.reqs id = some (r, .counted)) :
    (step c (run c ops).1 (.advance id now avg)).2 = [.started now id r] := by
  have hk : clientIP r = r.forwarded := by
    unfold clientIP
    rw [if_pos]
    obtain ⟨a, b, e⟩ := hf
    intro h
    rw [h] at e
    have := congrArg List.length e
    rw [List.length_append, List.length_append, show "127.0.0.1".toUTF8.data.toList.length = 9 by decide +kernel] at this
    rw [List.length_nil] at this
    omega
  exact (call_starts_iff c ops hc id now avg r ha hg).1 (Or.inl (Or.inr (by rw [hk]; exact hf)))

/-- The text that stands for a client: the first header, or else the second, whatever the client wrote into them; else the address of the connection. -/
theorem clients_named_by_themselves (f i remote : Text) (plain : Bool) (ask : Ask) :
    (f ≠ [] → clientIP ⟨f, i, remote, plain, ask⟩ = f) ∧ (i ≠ [] → clientIP ⟨[], i, remote, plain, ask⟩ = i) := by
  refine ⟨fun h => if_pos h, fun h => ?_⟩
  unfold clientIP
  rw [if_neg (by exact fun h => h rfl), if_pos h]

example : clientIP ⟨[1], [2], [3], true, .reset⟩ = [1] ∧ clientIP ⟨[], [2], [3], true, .reset⟩ = [2] := by decide +kernel

def exempt : Request := { call [7] m1 with forwarded := [120] ++ loopback ++ [120] }

example : Has exempt.forwarded "127.0.0.1".toUTF8.data.toList := ⟨[120], [120], by decide +kernel⟩

example : KV.get (run conf [.arrive 0 exempt, .advance 0 5 0, .advance 0 5 0]).1.reqs 0 = some (exempt, .counted) := by decide +kernel

/-- A client that chooses its header well always passes, whatever it did before. -/
theorem header_evades (c : Conf) (ops : List Op) (id now avg : Nat) (r : Request) (hl : 0 < c.limit) (ha : (run c ops).1.crashed = false)
    (hid : KV.get (run c ops).1.reqs id = none) (hroom : (run c ops).1.conns.length < c.maxConn) :
    ∃ f : Text, (run c (ops ++ [.arrive id { r with forwarded := f }, .advance id now avg])).2 = .passed now f :: (run c ops).2 := by
  obtain ⟨f, hf, hn⟩ := fresh_text (run c ops).1.rate
  refine ⟨f, ?_⟩
  rw [show ops ++ [Op.arrive id { r with forwarded := f }, .advance id now avg] =
    (ops ++ [.arrive id { r with forwarded := f }]) ++ [.advance id now avg] by rw [List.append_assoc]; rfl, run_snoc, run_snoc]
  generalize run c ops = x at ha hid hroom hn
  obtain ⟨s, evs⟩ := x
  dsimp only at ha hid hroom hn ⊢
  have hk : clientIP { r with forwarded := f } = f := if_pos hf
  have h1 : step c s (.arrive id { r with forwarded := f }) =
      ({ s with conns := addConn s.conns f, reqs := KV.set s.reqs id ({ r with forwarded := f }, .connected) }, []) := by
    unfold step
    rw [if_neg (by rw [ha]; exact Bool.false_ne_true)]
    show arrive c s id { r with forwarded := f } = _
    unfold arrive
    rw [hid, if_neg (by exact Bool.false_ne_true), if_neg (by omega), hk]
  rw [h1]
  unfold step
  rw [if_neg (by show ¬ s.crashed = true; rw [ha]; exact Bool.false_ne_true)]
  show (advance c _ id now avg).2 ++ ([] ++ evs) = _
  unfold advance
  rw [show KV.get (KV.set s.reqs id (({ r with forwarded := f } : Request), Phase.connected)) id = some ({ r with forwarded := f }, .connected) by
    rw [KV.get_set, if_pos rfl]]
  dsimp only
  rw [hk]
  unfold allow recent
  rw [hn]
  dsimp only [Option.getD_none]
  rw [if_neg (by rw [List.filter_nil, List.length_nil]; omega)]
  rfl

example : (run conf two).1.crashed = false ∧ KV.get (run conf two).1.reqs 9 = none ∧ (run conf two).1.conns.length < conf.maxConn := by decide +kernel

/-- Without headers, the client is the host together with the port: each connection counts as another client. -/
theorem ports_are_clients (host p q : Text) (plain : Bool) (ask : Ask) (hp : p ≠ []) (hq : q ≠ []) (hp' : (58 : UInt8) ∉ p) (hq' : (58 : UInt8) ∉ q) :
    clientIP ⟨[], [], host ++ [58] ++ p, plain, ask⟩ = clientIP ⟨[], [], host ++ [58] ++ q, plain, ask⟩ ↔ p = q := by
  have h : ∀ p : Text, p ≠ [] → (58 : UInt8) ∉ p → clientIP ⟨[], [], host ++ [58] ++ p, plain, ask⟩ = host ++ [58] ++ p := by
    intro p hp hp'
    unfold clientIP
    rw [if_neg (by exact fun h => h rfl), if_neg (by exact fun h => h rfl), if_neg, if_neg]
    · intro e
      have : (host ++ [58] ++ p).getLast? = p.getLast? := by
        rw [List.getLast?_append]
        cases hl : p.getLast? with
        | none => exact absurd (List.getLast?_eq_none_iff.1 hl) hp
        | some x => rfl
      rw [this] at e
      exact hp' (List.mem_of_getLast? e)
    · simp
  rw [h p hp hp', h q hq hq']
  exact ⟨fun e => List.append_cancel_left e, fun e => by rw [e]⟩

example : clientIP ⟨[], [], [49] ++ [58] ++ [50], true, .reset⟩ ≠ clientIP ⟨[], [], [49] ++ [58] ++ [51], true, .reset⟩ := by decide +kernel

/-- A client whose method has reached its limit of one, and then another request. -/
def evading (r : Request) : List Op :=
  [.arrive 0 (call [7] m1), .advance 0 100 0, .advance 0 100 0, .arrive 1 r, .advance 1 100 0, .advance 1 100 0, .advance 1 100 0, .advance 1 100 0]

theorem evading_run (r : Request) (hk : clientIP r = [7]) (hm : methodOf r = []) (hr : r.ask ≠ .reset) :
    (run conf (evading r)).2 = [.started 100 1 r, .counted 100 [] [7], .passed 100 [7], .counted 100 m1 [7], .passed 100 [7]] := by
  have h0 : run conf [.arrive 0 (call [7] m1), .advance 0 100 0, .advance 0 100 0] =
      (⟨[[7]], [([7], [100])], [(m1, (1, [([7], [100])]))], [], [(0, (call [7] m1, .counted))], false⟩,
        [.counted 100 m1 [7], .passed 100 [7]]) := by decide +kernel
  have h1 : run conf [.arrive 0 (call [7] m1), .advance 0 100 0, .advance 0 100 0, .arrive 1 r] =
      (⟨[[7]], [([7], [100])], [(m1, (1, [([7], [100])]))], [], [(1, (r, .connected)), (0, (call [7] m1, .counted))], false⟩,
        [.counted 100 m1 [7], .passed 100 [7]]) := by
    have := run_snoc conf [.arrive 0 (call [7] m1), .advance 0 100 0, .advance 0 100 0] (.arrive 1 r)
    rw [h0] at this
    refine this.trans ?_
    simp [step, arrive, conf, hk, addConn, KV.get, KV.set, KV.del]
  have h2 : run conf [.arrive 0 (call [7] m1), .advance 0 100 0, .advance 0 100 0, .arrive 1 r, .advance 1 100 0] =
      (⟨[[7]], [([7], [100, 100])], [(m1, (1, [([7], [100])]))], [], [(1, (r, .rated)), (0, (call [7] m1, .counted))], false⟩,
        [.passed 100 [7], .counted 100 m1 [7], .passed 100 [7]]) := by
    have := run_snoc conf [.arrive 0 (call [7] m1), .advance 0 100 0, .advance 0 100 0, .arrive 1 r] (.advance 1 100 0)
    rw [h1] at this
    refine this.trans ?_
    simp [step, advance, conf, hk, allow, recent, KV.get, KV.set, KV.del]
  have h3 : run conf [.arrive 0 (call [7] m1), .advance 0 100 0, .advance 0 100 0, .arrive 1 r, .advance 1 100 0, .advance 1 100 0] =
      (⟨[[7]], [([7], [100, 100])], [(m1, (1, [([7], [100])]))], [], [(1, (r, .inserting)), (0, (call [7] m1, .counted))], false⟩,
        [.passed 100 [7], .counted 100 m1 [7], .passed 100 [7]]) := by
    have := run_snoc conf [.arrive 0 (call [7] m1), .advance 0 100 0, .advance 0 100 0, .arrive 1 r, .advance 1 100 0] (.advance 1 100 0)
    rw [h2] at this
    refine this.trans ?_
    simp [step, advance, hr, hm, m1, KV.get, KV.set, KV.del]
  have h4 : run conf [.arrive 0 (call [7] m1), .advance 0 100 0, .advance 0 100 0, .arrive 1 r, .advance 1 100 0, .advance 1 100 0, .advance 1 100 0] =
      (⟨[[7]], [([7], [100, 100])], [([], (2, [([7], [100])])), (m1, (1, [([7], [100])]))], [], [(1, (r, .counted)), (0, (call [7] m1, .counted))], false⟩,
        [.counted 100 [] [7], .passed 100 [7], .counted 100 m1 [7], .passed 100 [7]]) := by
    have := run_snoc conf [.arrive 0 (call [7] m1), .advance 0 100 0, .advance 0 100 0, .arrive 1 r, .advance 1 100 0, .advance 1 100 0] (.advance 1 100 0)
    rw [h3] at this
    refine this.trans ?_
    simp [step, advance, advance.count, allow, recent, conf, hk, hm, m1, KV.get, KV.set, KV.del]
  have := run_snoc conf [.arrive 0 (call [7] m1), .advance 0 100 0, .advance 0 100 0, .arrive 1 r, .advance 1 100 0, .advance 1 100 0, .advance 1 100 0]
    (.advance 1 100 0)
  rw [h4] at this
  refine (congrArg Prod.snd this).trans ?_
  have hp : ∀ s : S, s.comp = [] → predict conf s 100 0 [7] = true := by
    intro s hs
    unfold predict
    rw [hs]
    rw [if_neg (by decide +kernel)]
    rfl
  simp [step, advance, hk, KV.get, hp]

/-- Counterexample: a list of any number of calls of one method counts as none of them: it starts right after the method has reached its limit of one. -/
theorem batches_evade (n : Nat) : ∃ ops : List Op, Clocked ops ∧ within conf.window 100 (counts (run conf ops).2 m1 [7]) = limitOf conf m1 ∧
    (run conf ops).2.head? = some (.started 100 1 { call [7] m1 with ask := .batch (List.replicate n m1) }) := by
  refine ⟨evading { call [7] m1 with ask := .batch (List.replicate n m1) }, ?_, ?_, ?_⟩
  · show List.Pairwise _ _
    show List.Pairwise _ [100, 100, 100, 100, 100, 100]
    decide +kernel
  · rw [evading_run _ rfl rfl (by exact fun h => nomatch h)]
    rfl
  · rw [evading_run _ rfl rfl (by exact fun h => nomatch h)]
    rfl

/-- Counterexample: so does a call with another spelling of the content type. -/
theorem content_type_evades : ∃ ops : List Op, Clocked ops ∧ within conf.window 100 (counts (run conf ops).2 m1 [7]) = limitOf conf m1 ∧
    (run conf ops).2.head? = some (.started 100 1 { call [7] m1 with plain := false }) :=
  ⟨evading { call [7] m1 with plain := false }, by unfold Clocked; decide +kernel, by decide +kernel, by decide +kernel⟩

/-- Counterexample: anybody empties the tables. With a limit of two in ten ticks, six requests of one client pass at once. -/
theorem anybody_empties : ∃ ops : List Op, Clocked ops ∧ (∀ id r, Op.arrive id r ∈ ops → clientIP r = [7]) ∧
    within conf.window 100 ((run conf ops).2.filterMap (passTime [7])) = 6 := by
  refine ⟨[.arrive 0 (call [7] m1), .advance 0 100 0, .arrive 1 { call [7] m1 with ask := .reset }, .advance 1 100 0, .advance 1 100 0,
    .arrive 2 (call [7] m1), .advance 2 100 0, .arrive 3 { call [7] m1 with ask := .reset }, .advance 3 100 0, .advance 3 100 0,
    .arrive 4 (call [7] m1), .advance 4 100 0, .arrive 5 { call [7] m1 with ask := .reset }, .advance 5 100 0, .advance 5 100 0],
    by unfold Clocked; decide +kernel, fun id r h => ?_, by decide +kernel⟩
  simp only [List.mem_cons, Op.arrive.injEq, reduceCtorEq, List.not_mem_nil, false_or, or_false] at h
  rcases h with ⟨_, h⟩ | ⟨_, h⟩ | ⟨_, h⟩ | ⟨_, h⟩ | ⟨_, h⟩ | ⟨_, h⟩ <;> rw [h] <;> rfl

/-- At most `maxConn` clients are counted as connected. -/
theorem clients_limited (c : Conf) (ops : List Op) : (run c ops).1.conns.Nodup ∧ (run c ops).1.conns.length ≤ c.maxConn := conns_run c ops

/-- If no client has two requests at a time, at most `maxConn` requests are open, and one more is accepted exactly if fewer are. -/
theorem connections_limited_partial (c : Conf) (ops : List Op) (h : OneAtATime c ops) :
    (run c ops).1.reqs.length ≤ c.maxConn ∧
    ∀ id r, KV.get (run c ops).1.reqs id = none → (run c ops).1.crashed = false →
      (step c (run c ops).1 (.arrive id r)).2 = if (run c ops).1.reqs.length < c.maxConn then [] else [.refused id] := by
  have hf : Fair (run c ops).1 := by
    induction ops using snoc_induction with
    | h0 => exact ⟨.nil, .nil, .nil, fun k => ⟨fun h => (nomatch h), fun h => (nomatch h)⟩⟩
    | h1 ops op ih =>
      rw [run_snoc]
      refine fair_step (ih fun pre id r post e => h pre id r (post ++ [op]) (by rw [e, List.append_assoc]; rfl)) op fun id r e => ?_
      exact h ops id r [] (by rw [e])
  have hlen : (run c ops).1.reqs.length = (run c ops).1.conns.length := by
    have : (run c ops).1.conns.Perm ((run c ops).1.reqs.map (fun x => clientIP x.2.1)) :=
      (List.perm_ext_iff_of_nodup hf.conns hf.clients).2 hf.mem
    rw [this.length_eq, List.length_map]
  rw [hlen]
  refine ⟨(conns_run c ops).2, fun id r hid ha => ?_⟩
  unfold step
  rw [if_neg (by rw [ha]; exact Bool.false_ne_true)]
  show (arrive c (run c ops).1 id r).2 = _
  unfold arrive
  rw [hid, if_neg (by exact Bool.false_ne_true)]
  by_cases hc : (run c ops).1.conns.length < c.maxConn
  · rw [if_neg (by omega), if_pos hc]
  · rw [if_pos (by omega), if_neg hc]

example : OneAtATime conf [.arrive 0 (call [7] m1), .arrive 1 (call [8] m1)] := by
  intro pre id r post e x hx
  match pre, e with
  | [], _ => cases hx
  | [_], e =>
    cases e
    have : (run conf [.arrive 0 (call [7] m1)]).1.reqs = [(0, (call [7] m1, .connected))] := by decide +kernel
    rw [this] at hx
    rw [List.mem_singleton.1 hx]
    decide +kernel
  | [_, _], e => cases e
  | _ :: _ :: _ :: _, e => cases e

/-- Counterexample: one client has any number of requests open, if two connections are allowed. -/
theorem one_client_unlimited (c : Conf) (hm : 2 ≤ c.maxConn) (r : Request) (n : Nat) :
    (run c ((List.range n).map (fun i => .arrive i r))).1.reqs.length = n := by
  have key : ∀ n, (run c ((List.range n).map (fun i => .arrive i r))).1.crashed = false ∧
      (run c ((List.range n).map (fun i => .arrive i r))).1.reqs.length = n ∧
      (∀ x ∈ (run c ((List.range n).map (fun i => .arrive i r))).1.reqs, x.1 < n) ∧
      (∀ k ∈ (run c ((List.range n).map (fun i => .arrive i r))).1.conns, k = clientIP r) ∧
      (run c ((List.range n).map (fun i => .arrive i r))).1.conns.length ≤ 1 := by
    intro n
    induction n with
    | zero => exact ⟨rfl, rfl, (fun x hx => nomatch hx), (fun x hx => nomatch hx), Nat.zero_le _⟩
    | succ n ih =>
      rw [List.range_succ, List.map_append, List.map_cons, List.map_nil, run_snoc]
      generalize (run c ((List.range n).map (fun i => .arrive i r))).1 = s at ih
      obtain ⟨h1, h2, h3, h4, h5⟩ := ih
      have hid : KV.get s.reqs n = none := KV.get_eq_none.2 fun x hx e => by have := h3 x hx; omega
      have hs : step c s (.arrive n r) = ({ s with conns := addConn s.conns (clientIP r), reqs := KV.set s.reqs n (r, .connected) }, []) := by
        unfold step
        rw [if_neg (by rw [h1]; exact Bool.false_ne_true)]
        show arrive c s n r = _
        unfold arrive
        rw [hid, if_neg (by exact Bool.false_ne_true), if_neg (by omega)]
      rw [hs]
      have hd : KV.set s.reqs n (r, Phase.connected) = (n, (r, .connected)) :: s.reqs := by
        unfold KV.set
        rw [KV.del_of_get_none hid]
      refine ⟨h1, by dsimp only; rw [hd, List.length_cons, h2], fun x hx => ?_, fun k hk => ?_, ?_⟩
      · dsimp only at hx
        rw [hd] at hx
        rcases List.mem_cons.1 hx with e | e
        · rw [e]; exact Nat.lt_succ_self n
        · exact Nat.lt_succ_of_lt (h3 x e)
      · have hk : k ∈ addConn s.conns (clientIP r) := hk
        unfold addConn at hk
        split at hk
        · exact h4 k hk
        · rcases List.mem_cons.1 hk with e | e
          · exact e
          · exact h4 k e
      · show (addConn s.conns (clientIP r)).length ≤ 1
        unfold addConn
        split
        · exact h5
        · rename_i hn
          cases hc : s.conns with
          | nil => exact Nat.le_refl _
          | cons k l =>
            rw [hc] at h4 hn
            exact absurd (by rw [h4 k List.mem_cons_self]; exact List.mem_cons_self) hn
  exact (key n).2.1

/-- Counterexample: the end of one request frees the place of all of its client's; then more clients are served than allowed. -/
theorem place_freed_early : ∃ (c : Conf) (ops : List Op), c.maxConn = 2 ∧
    (((run c ops).1.reqs.map (fun x => clientIP x.2.1)).eraseDups).length = 3 :=
  ⟨{ conf with maxConn := 2 }, [.arrive 0 (call [7] m1), .arrive 1 (call [7] m1), .advance 0 0 0, .advance 0 0 0, .advance 0 0 0, .finish 0 1 1,
    .arrive 2 (call [8] m1), .arrive 3 (call [9] m1)], rfl, by decide +kernel⟩

/-- Counterexample: two requests with new names of methods, which nobody has to have heard of, can end the process. -/
theorem two_new_methods_crash : ∃ ops : List Op, Clocked ops ∧ (run conf ops).1.crashed = true :=
  ⟨[.arrive 0 (call [7] m2), .arrive 1 (call [8] [3]), .advance 0 0 0, .advance 1 0 0, .advance 0 0 0, .advance 1 0 0],
    by unfold Clocked; decide +kernel, by decide +kernel⟩

/-- It does not end if all names of methods in requests have limits of their own. -/
theorem no_crash_partial (c : Conf) (ops : List Op) (h : ∀ id r, Op.arrive id r ∈ ops → r.ask ≠ .reset → KV.get c.own (methodOf r) ≠ none) :
    (run c ops).1.crashed = false := by
  have key : Known (run c ops).1 ∧ ∀ m, KV.get c.own m ≠ none → KV.get (run c ops).1.methods m ≠ none := by
    induction ops using snoc_induction with
    | h0 =>
      refine ⟨⟨rfl, (fun x hx => nomatch hx), (fun x hx => nomatch hx)⟩, fun m hm e => ?_⟩
      exact hm ((inv_init c).methNone m e).1
    | h1 ops op ih =>
      obtain ⟨h1, h2⟩ := ih fun id r hm => h id r (List.mem_append_left _ hm)
      rw [run_snoc]
      obtain ⟨h3, h4⟩ := known_step (c := c) h1 op fun id r e hr =>
        h2 _ (h id r (List.mem_append_right _ (by rw [e]; exact List.mem_cons_self)) hr)
      exact ⟨h3, fun m hm => h4 m (h2 m hm)⟩
  exact key.1.alive

example : ∀ id r, Op.arrive id r ∈ two → r.ask ≠ .reset → KV.get conf.own (methodOf r) ≠ none := by
  intro id r h _
  simp only [two, List.mem_cons, Op.arrive.injEq, reduceCtorEq, List.not_mem_nil, false_or, or_false] at h
  rcases h with ⟨_, h⟩ | ⟨_, h⟩ | ⟨_, h⟩ <;> rw [h] <;> decide +kernel

/-- No client is forgotten: who has passed once stays in the table through everything but its being emptied. -/
theorem never_forgotten (c : Conf) (s : S) (op : Op) (k : Text) (h : KV.get s.rate k ≠ none) (he : Event.emptied ∉ (step c s op).2) :
    KV.get (step c s op).1.rate k ≠ none := by
  unfold step at he ⊢
  split
  · exact h
  rename_i hc
  rw [if_neg hc] at he
  cases op with
  | arrive id r =>
    show KV.get (arrive c s id r).1.rate k ≠ none
    unfold arrive
    split
    · exact h
    · split <;> exact h
  | advance id now avg =>
    have he : Event.emptied ∉ (advance c s id now avg).2 := he
    show KV.get (advance c s id now avg).1.rate k ≠ none
    have hcount : ∀ (s' : S) r, s'.rate = s.rate → KV.get (advance.count c id now s' r).1.rate k ≠ none := by
      intro s' r hs
      unfold advance.count
      split
      · rw [hs]; exact h
      · split
        · show KV.get s'.rate k ≠ none; rw [hs]; exact h
        · show KV.get s'.rate k ≠ none; rw [hs]; exact h
    unfold advance at he ⊢
    split
    · exact h
    · split
      · exact h
      · rename_i m ha
        show KV.get m k ≠ none
        rw [(allow_true ha).2, KV.get_set]
        split
        · exact fun h => nomatch h
        · exact h
    · rename_i hg
      rw [hg] at he
      dsimp only at he
      split
      · rename_i hr
        rw [if_pos hr] at he
        split
        · exact h
        · rename_i hi
          rw [if_neg hi] at he
          exact absurd List.mem_cons_self he
      · split
        · exact h
        · split
          · exact h
          · exact hcount s _ rfl
    · exact hcount _ _ rfl
    · split
      · exact h
      · exact h
    · exact h
  | finish id now dur =>
    show KV.get (finish s id now dur).1.rate k ≠ none
    unfold finish
    split <;> exact h
  | timeout id =>
    show KV.get (timeout s id).1.rate k ≠ none
    unfold timeout
    split <;> exact h

example : KV.get (run conf two).1.rate [7] ≠ none ∧ Event.emptied ∉ (step conf (run conf two).1 (.advance 2 99999 0)).2 := by decide +kernel

end Rpc.Limits
