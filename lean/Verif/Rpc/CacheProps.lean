import Verif.Rpc.CacheLemmas
/-!
# The cache of answers (C98)

An answer from the cache is the last one the method gave to the same question, and no older than the time the method's answers are kept; failures are
not kept, and no more answers than the capacity. Answers never go back in time, and the cache keeps load from the methods.

The first sentence holds (`hits_fresh`, `hit_iff_partial`, `hit_last`, `questions_differ`, `size_bounded`). The second does not: a slow call overwrites a newer answer
(`goes_back`), cached answers lag behind others (`behind_other_answers`), and all who ask before the first answer is there have the method work (`stampede`). Going back
needs two calls at the same time (`never_back_partial`).
-/
namespace Rpc.Cache

/-- Every answer from the cache was given by the method to the same question, no longer ago than answers to it are kept. -/
theorem hits_fresh (c : Conf) (ops : List Op) (hc : Clocked ops) (id : Nat) (k : Text) (t v : Nat) (h : .hit id k t v ∈ (run c ops).2) :
    ∃ id' b e d, .fetched id' k b e (.ok v) ∈ (run c ops).2 ∧ c.ttl k = some d ∧ b ≤ e ∧ e ≤ t ∧ t ≤ e + d := by
  obtain ⟨T, hT⟩ := bound_exists (ops.filterMap opTime)
  exact (inv_run c ops hc T hT).hits id k t v h

/-- Two questions, answers kept for five and sixty ticks, room for two. -/
def conf : Conf := { cap := 2, ttl := fun k => if k = [1] then some 5 else if k = [2] then some 60 else if k = [3] then some 60 else none }

def once : List Op := [.ask 0 [1] 10, .back 0 12 (.ok 7), .ask 1 [1] 17]

example : Clocked once ∧ .hit 1 [1] 17 7 ∈ (run conf once).2 ∧ (step conf (run conf once).1 (.ask 2 [1] 18)).2 = [] := by
  unfold Clocked
  decide +kernel

/-- An answer from the cache is the last the method gave to the question. -/
theorem hit_last (c : Conf) (ops : List Op) (hc : Clocked ops) (id now : Nat) (k : Text) (id' t v : Nat) (k' : Text)
    (h : .hit id' k' t v ∈ (step c (run c ops).1 (.ask id k now)).2) :
    id' = id ∧ k' = k ∧ t = now ∧ ∃ e d, lastAnswer k (run c ops).2 = some (e, v) ∧ c.ttl k = some d ∧ now ≤ e + d := by
  obtain ⟨T, hT⟩ := bound_exists (ops.filterMap opTime)
  have hi := inv_run c ops hc T hT
  have h : .hit id' k' t v ∈ (ask c (run c ops).1 id k now).2 := h
  unfold ask at h
  split at h
  · cases h
  split at h
  · cases h
  split at h
  · cases h
  rename_i v' x hg
  split at h
  · cases h
  rename_i hx
  cases List.mem_singleton.1 h
  obtain ⟨d, e, h1, h2, h3⟩ := hi.entry k v x (KV.mem_of_get hg)
  exact ⟨rfl, rfl, rfl, e, d, h2, h1, by omega⟩

/-- The cache answers if the last answer is not too old and fewer other questions than it has room for were used since the question was. -/
theorem hit_iff_partial (c : Conf) (ops : List Op) (hc : Clocked ops) (id now : Nat) (k : Text) (hn : ∀ x ∈ ops.filterMap opTime, x ≤ now)
    (hid : KV.get (run c ops).1.work id = none) (l : List Text) (hl : l.length < c.cap) (ho : ∀ j ∈ others c k (run c ops).2, j ∈ l) :
    (∀ v, (step c (run c ops).1 (.ask id k now)).2 = [.hit id k now v] ↔
      ∃ e d, lastAnswer k (run c ops).2 = some (e, v) ∧ c.ttl k = some d ∧ now ≤ e + d) := by
  intro v
  have hi := inv_run c ops hc now hn
  constructor
  · intro h
    exact (hit_last c ops hc id now k id now v k (by rw [h]; exact List.mem_cons_self)).2.2.2
  · rintro ⟨e, d, h1, h2, h3⟩
    rcases hi.kept k d e v h2 h1 with ⟨pre, x, post, hx, _⟩ | h | h
    · have hm : (k, x) ∈ (run c ops).1.lru := by rw [hx]; exact List.mem_append_right _ List.mem_cons_self
      have hg := KV.get_of_mem hi.dist hm
      obtain ⟨v', y⟩ := x
      obtain ⟨d', e', h1', h2', h3'⟩ := hi.entry k v' y hm
      rw [h1] at h2'
      cases h2'
      rw [h2] at h1'
      cases h1'
      show (ask c (run c ops).1 id k now).2 = _
      unfold ask
      rw [hid, h2, hg]
      dsimp only
      rw [if_neg (by exact Bool.false_ne_true), if_neg (by omega)]
    · omega
    · have := h l ho
      omega

example : others conf [1] (run conf [.ask 0 [1] 10, .back 0 12 (.ok 7), .ask 1 [2] 12, .back 1 13 (.ok 8)]).2 = [[2]] ∧
    (step conf (run conf [.ask 0 [1] 10, .back 0 12 (.ok 7), .ask 1 [2] 12, .back 1 13 (.ok 8)]).1 (.ask 2 [1] 17)).2 = [.hit 2 [1] 17 7] ∧
    (step conf (run conf [.ask 0 [1] 10, .back 0 12 (.ok 7), .ask 1 [2] 12, .back 1 13 (.ok 8), .ask 3 [3] 13, .back 3 13 (.ok 9)]).1 (.ask 2 [1] 17)).2 = [] := by
  decide +kernel

/-- What is not found is asked of the method: a request is answered at once from the cache, or waits for the method, which it began now. -/
theorem answered_or_asked (c : Conf) (s : S) (id now : Nat) (k : Text) (hid : KV.get s.work id = none) :
    (∃ v, (step c s (.ask id k now)).2 = [.hit id k now v] ∧ (step c s (.ask id k now)).1.work = s.work) ∨
    ((step c s (.ask id k now)).2 = [] ∧ KV.get (step c s (.ask id k now)).1.work id = some (k, now)) := by
  show (∃ v, (ask c s id k now).2 = [.hit id k now v] ∧ (ask c s id k now).1.work = s.work) ∨
    ((ask c s id k now).2 = [] ∧ KV.get (ask c s id k now).1.work id = some (k, now))
  have hs : KV.get (KV.set s.work id (k, now)) id = some (k, now) := by rw [KV.get_set, if_pos rfl]
  unfold ask
  rw [hid, if_neg (by exact Bool.false_ne_true)]
  split
  · exact Or.inr ⟨rfl, hs⟩
  split
  · exact Or.inr ⟨rfl, hs⟩
  split
  · exact Or.inr ⟨rfl, hs⟩
  · exact Or.inl ⟨_, rfl, rfl⟩

/-- Methods whose answers are not kept are asked each time. -/
theorem uncached_asked (c : Conf) (s : S) (id now : Nat) (k : Text) (hid : KV.get s.work id = none) (hk : c.ttl k = none) :
    (step c s (.ask id k now)).2 = [] ∧ KV.get (step c s (.ask id k now)).1.work id = some (k, now) := by
  show (ask c s id k now).2 = [] ∧ KV.get (ask c s id k now).1.work id = some (k, now)
  unfold ask
  rw [hid, if_neg (by exact Bool.false_ne_true), hk]
  exact ⟨rfl, by show KV.get (KV.set s.work id (k, now)) id = _; rw [KV.get_set, if_pos rfl]⟩

/-- The method's answer is passed on as it is; a failure leaves the cache as it was. -/
theorem fetch_exact (c : Conf) (s : S) (id now b : Nat) (k : Text) (r : Res) (hw : KV.get s.work id = some (k, b)) :
    (step c s (.back id now r)).2 = [.fetched id k b now r] ∧ (r = .fail → (step c s (.back id now r)).1.lru = s.lru) := by
  show (back c s id now r).2 = [.fetched id k b now r] ∧ (r = .fail → (back c s id now r).1.lru = s.lru)
  unfold back
  rw [hw]
  dsimp only
  split
  · exact ⟨rfl, fun h => nomatch h⟩
  · exact ⟨rfl, fun _ => rfl⟩

example : KV.get (run conf [.ask 0 [9] 10]).1.work 0 = some ([9], 10) ∧ KV.get (run conf [.ask 0 [9] 10]).1.work 1 = none ∧ conf.ttl [9] = none := by
  decide +kernel

/-- No more answers are kept than there is room for, and one for each question. -/
theorem size_bounded (c : Conf) (ops : List Op) (hc : Clocked ops) : (run c ops).1.lru.length ≤ c.cap ∧ ((run c ops).1.lru.map (·.1)).Nodup := by
  obtain ⟨T, hT⟩ := bound_exists (ops.filterMap opTime)
  exact ⟨(inv_run c ops hc T hT).size, (inv_run c ops hc T hT).dist⟩

/-- Different questions have different texts: of one method with arguments of its signature, and of two methods. -/
theorem questions_differ (sig : Text → List Kind) (m m' : Text) (as as' : List Arg) (h : Fits (sig m) as) (h' : Fits (sig m') as')
    (e : question m as = question m' as') : m = m' ∧ as = as' := by
  unfold question at e
  simp only [List.append_assoc] at e
  have e := List.append_cancel_left (List.append_cancel_left (List.append_cancel_left e))
  rw [quoted_append (m.flatMap esc), quoted_append (m'.flatMap esc)] at e
  injection e with _ e
  obtain ⟨hm, e2⟩ := text_inj m m' _ _ e
  subst hm
  have e3 := List.append_cancel_left (List.append_cancel_left (List.append_cancel_left e2))
  exact ⟨rfl, args_inj (sig m) as as' [125] [125] h h' e3⟩

example : Fits [.hex, .str] [.hex 255, .str [34, 44]] ∧ question [77] [.hex 255, .str [34, 44]] = "{\"method\":\"M\",\"params\":[\"0xff\",\"\\\",\"]}".toUTF8.data.toList := by
  refine ⟨⟨rfl, ?_⟩, by decide +kernel⟩
  intro x hx
  rcases List.mem_cons.1 hx with e | e
  · rw [e]; trivial
  · rw [List.mem_singleton.1 e]; trivial

/-- If the method never works on a question twice at a time, answers do not fall behind: what the method's answers do from one call to the next, all answers do. -/
theorem never_back_partial (c : Conf) (ops : List Op) (hc : Clocked ops) (k : Text) (R : Nat → Nat → Prop) (hr : ∀ a, R a a) (ha : Alone c k ops)
    (hg : Grows R k (run c ops).2) : (answers k (run c ops).2).Pairwise (fun later earlier => R earlier later) := by
  have key : Orderly R k (run c ops).1 (run c ops).2 := by
    induction ops using snoc_induction with
    | h0 =>
      exact ⟨(fun _ h => nomatch h), (fun _ h => nomatch h), .nil, (fun _ _ h => nomatch h), (fun _ h => nomatch h), .nil⟩
    | h1 ops op ih =>
      obtain ⟨h1, h2⟩ := clocked_snoc hc
      rw [run_snoc] at hg ⊢
      have ho := ih h1 (fun pre id now post e => ha pre id now (post ++ [op]) (by rw [e, List.append_assoc]; rfl))
        (fun id b t v id' b' t' v' hm hm' => hg id b t v id' b' t' v' (List.mem_append_right _ hm) (List.mem_append_right _ hm'))
      have hask : ∀ id now, op = .ask id k now → ∀ x ∈ (run c ops).1.work, x.2.1 ≠ k := fun id now e => ha ops id now [] (by rw [e])
      cases hop : opTime op with
      | none =>
        obtain ⟨T, hT⟩ := bound_exists (ops.filterMap opTime)
        exact orderly_step (inv_run c ops h1 T hT) ho hr op (fun t ht => by rw [hop] at ht; cases ht) hask hg
      | some t => exact orderly_step (inv_run c ops h1 t (h2 t hop)) ho hr op (fun t' ht => by rw [hop] at ht; cases ht; rfl) hask hg
  exact key.sorted

def growing : List Op := [.ask 0 [1] 10, .back 0 12 (.ok 7), .ask 1 [1] 17, .ask 2 [1] 18, .back 2 19 (.ok 9), .ask 3 [1] 20]

example : Clocked growing ∧ answers [1] (run conf growing).2 = [9, 9, 7, 7] := by
  unfold Clocked
  decide +kernel

example : Grows (· ≤ ·) [1] (run conf growing).2 := by
  have : (run conf growing).2 = [.hit 3 [1] 20 9, .fetched 2 [1] 18 19 (.ok 9), .hit 1 [1] 17 7, .fetched 0 [1] 10 12 (.ok 7)] := by decide +kernel
  rw [this]
  intro id b t v id' b' t' v' h h' hle
  simp only [List.mem_cons, reduceCtorEq, Event.fetched.injEq, Res.ok.injEq, List.not_mem_nil, false_or, or_false, true_and] at h h'
  omega

example : Alone conf [1] growing := by
  intro pre id now post e
  have h1 : (run conf []).1.work = [] := rfl
  have h2 : (run conf [.ask 0 [1] 10, .back 0 12 (.ok 7)]).1.work = [] := by decide +kernel
  have h3 : (run conf [.ask 0 [1] 10, .back 0 12 (.ok 7), .ask 1 [1] 17]).1.work = [] := by decide +kernel
  have h4 : (run conf [.ask 0 [1] 10, .back 0 12 (.ok 7), .ask 1 [1] 17, .ask 2 [1] 18, .back 2 19 (.ok 9)]).1.work = [] := by decide +kernel
  match pre, e with
  | [], _ => rw [h1]; exact fun _ h => nomatch h
  | [_], e => cases e
  | [_, _], e => cases e; rw [h2]; exact fun _ h => nomatch h
  | [_, _, _], e => cases e; rw [h3]; exact fun _ h => nomatch h
  | [_, _, _, _], e => cases e
  | [_, _, _, _, _], e => cases e; rw [h4]; exact fun _ h => nomatch h
  | [_, _, _, _, _, _], e => cases e
  | _ :: _ :: _ :: _ :: _ :: _ :: _ :: _, e => cases e

/-- Counterexample: of two calls at the same time the slower one overwrites the newer answer. The height of the chain goes from six to five. -/
theorem goes_back : ∃ (height : Nat → Nat) (ops : List Op), Clocked ops ∧ FromHeights height (run conf ops).2 ∧ answers [1] (run conf ops).2 = [5, 5, 6] := by
  refine ⟨fun t => if t = 0 then 5 else 6, [.ask 0 [1] 0, .ask 1 [1] 1, .back 1 2 (.ok 6), .back 0 3 (.ok 5), .ask 2 [1] 8], by unfold Clocked; decide +kernel, ⟨?_, ?_⟩,
    by decide +kernel⟩
  · intro i j h
    dsimp only
    split <;> split <;> omega
  · have : (run conf [.ask 0 [1] 0, .ask 1 [1] 1, .back 1 2 (.ok 6), .back 0 3 (.ok 5), .ask 2 [1] 8]).2 =
        [.hit 2 [1] 8 5, .fetched 0 [1] 0 3 (.ok 5), .fetched 1 [1] 1 2 (.ok 6)] := by decide +kernel
    rw [this]
    intro id k b t v h
    simp only [List.mem_cons, reduceCtorEq, Event.fetched.injEq, Res.ok.injEq, List.not_mem_nil, false_or, or_false] at h
    rcases h with ⟨_, _, rfl, rfl, rfl⟩ | ⟨_, _, rfl, rfl, rfl⟩
    · exact ⟨0, by omega, by omega, rfl⟩
    · exact ⟨1, by omega, by omega, rfl⟩

/-- Counterexample: after a method that is not cached has answered from height nine, the cached one says seven. -/
theorem behind_other_answers : ∃ (height : Nat → Nat) (ops : List Op), Clocked ops ∧ FromHeights height (run conf ops).2 ∧
    (run conf ops).2 = [.hit 2 [1] 16 7, .fetched 1 [9] 14 15 (.ok 9), .fetched 0 [1] 10 12 (.ok 7)] := by
  refine ⟨fun t => if t < 13 then 7 else 9, [.ask 0 [1] 10, .back 0 12 (.ok 7), .ask 1 [9] 14, .back 1 15 (.ok 9), .ask 2 [1] 16], by unfold Clocked; decide +kernel, ⟨?_, ?_⟩,
    by decide +kernel⟩
  · intro i j h
    dsimp only
    split <;> split <;> omega
  · have : (run conf [.ask 0 [1] 10, .back 0 12 (.ok 7), .ask 1 [9] 14, .back 1 15 (.ok 9), .ask 2 [1] 16]).2 =
        [.hit 2 [1] 16 7, .fetched 1 [9] 14 15 (.ok 9), .fetched 0 [1] 10 12 (.ok 7)] := by decide +kernel
    rw [this]
    intro id k b t v h
    simp only [List.mem_cons, reduceCtorEq, Event.fetched.injEq, Res.ok.injEq, List.not_mem_nil, false_or, or_false] at h
    rcases h with ⟨_, _, rfl, rfl, rfl⟩ | ⟨_, _, rfl, rfl, rfl⟩
    · exact ⟨14, by omega, by omega, rfl⟩
    · exact ⟨10, by omega, by omega, rfl⟩

/-- Counterexample: all who ask before the first answer is there have the method work, any number. -/
theorem stampede (c : Conf) (k : Text) (t n : Nat) :
    (run c ((List.range n).map (fun i => .ask i k t))).1.work.length = n ∧ (run c ((List.range n).map (fun i => .ask i k t))).2 = [] := by
  have key : ∀ n, (run c ((List.range n).map (fun i => .ask i k t))).1.lru = [] ∧ (run c ((List.range n).map (fun i => .ask i k t))).2 = [] ∧
      (run c ((List.range n).map (fun i => .ask i k t))).1.work.length = n ∧ ∀ x ∈ (run c ((List.range n).map (fun i => .ask i k t))).1.work, x.1 < n := by
    intro n
    induction n with
    | zero => exact ⟨rfl, rfl, rfl, fun x hx => nomatch hx⟩
    | succ n ih =>
      rw [List.range_succ, List.map_append, List.map_cons, List.map_nil, run_snoc]
      generalize run c ((List.range n).map (fun i => .ask i k t)) = x at ih
      obtain ⟨s, evs⟩ := x
      obtain ⟨h1, h2, h3, h4⟩ := ih
      dsimp only at h1 h2 h3 h4 ⊢
      have hid : KV.get s.work n = none := KV.get_eq_none.2 fun x hx e => by have := h4 x hx; omega
      have hs : step c s (.ask n k t) = ({ s with work := (n, (k, t)) :: s.work }, []) := by
        show ask c s n k t = _
        unfold ask
        rw [hid, h1, KV.get_nil, if_neg (by exact Bool.false_ne_true)]
        unfold KV.set
        rw [KV.del_of_get_none hid]
        split <;> rfl
      rw [hs]
      refine ⟨h1, h2, by show s.work.length + 1 = n + 1; rw [h3], fun x hx => ?_⟩
      rcases List.mem_cons.1 hx with e | e
      · rw [e]; exact Nat.lt_succ_self n
      · exact Nat.lt_succ_of_lt (h4 x e)
  exact ⟨(key n).2.2.1, (key n).2.1⟩

/-- Counterexample: every call of an exported method leaves one more goroutine that never ends. -/
theorem routines_pile_up (c : Conf) (ops : List Op) :
    (run c ops).1.routines = (ops.filter (fun op => match op with | .routine => true | _ => false)).length := by
  induction ops using snoc_induction with
  | h0 => rfl
  | h1 ops op ih =>
    rw [run_snoc, List.filter_append, List.length_append, ← ih]
    cases op with
    | ask id k now =>
      show (ask c (run c ops).1 id k now).1.routines = _
      unfold ask
      split
      · rfl
      split
      · rfl
      split
      · rfl
      split <;> rfl
    | back id now r =>
      show (back c (run c ops).1 id now r).1.routines = _
      unfold back
      split
      · rfl
      split <;> rfl
    | clean now => rfl
    | routine => rfl

example : (run conf [.routine, .ask 0 [1] 3, .routine]).1.routines = 2 := by decide +kernel

end Rpc.Cache
