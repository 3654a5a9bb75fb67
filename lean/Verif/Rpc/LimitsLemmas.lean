import Verif.Rpc.LimitsSpec
/-!
# Lemmas on limits on requests
-/
namespace Rpc.Limits

theorem run_snoc (c : Conf) (ops : List Op) (op : Op) :
    run c (ops ++ [op]) = ((step c (run c ops).1 op).1, (step c (run c ops).1 op).2 ++ (run c ops).2) := by
  unfold run
  rw [List.foldl_append]
  rfl

/-- Induction over schedules from the end. -/
theorem snoc_induction {P : List Op → Prop} (h0 : P []) (h1 : ∀ ops op, P ops → P (ops ++ [op])) : ∀ ops, P ops := by
  intro ops
  have : ∀ l : List Op, P l.reverse := by
    intro l
    induction l with
    | nil => exact h0
    | cons x l ih => rw [List.reverse_cons]; exact h1 _ _ ih
  have h := this ops.reverse
  rw [List.reverse_reverse] at h
  exact h

theorem clocked_snoc {ops : List Op} {op : Op} (h : Clocked (ops ++ [op])) :
    Clocked ops ∧ ∀ t, opTime op = some t → ∀ x ∈ ops.filterMap opTime, x ≤ t := by
  unfold Clocked at h ⊢
  rw [List.filterMap_append, List.pairwise_append] at h
  refine ⟨h.1, fun t ht x hx => h.2.2 x hx t ?_⟩
  rw [List.filterMap_cons, ht]
  exact List.mem_cons_self

/-! ## Tables -/

/-- A table says what `hist` says, for all windows that end at `T` or later. -/
def Tracks (window T : Nat) (m : Table) (hist : Text → List Nat) : Prop :=
  ∀ now k, T ≤ now → recent window now m k = ((hist k).filter (fun t => decide (now < t + window))).reverse

theorem Tracks.mono {window T T' : Nat} {m : Table} {hist : Text → List Nat} (h : Tracks window T m hist) (hT : T ≤ T') :
    Tracks window T' m hist := fun now k hn => h now k (Nat.le_trans hT hn)

theorem tracks_nil (window T : Nat) : Tracks window T [] (fun _ => []) := fun _ _ _ => rfl

theorem allow_false {limit window now : Nat} {m m' : Table} {k : Text} (h : allow limit window now m k = (false, m')) :
    limit ≤ (recent window now m k).length := by
  unfold allow at h
  split at h
  · assumption
  · cases h

theorem allow_true {limit window now : Nat} {m m' : Table} {k : Text} (h : allow limit window now m k = (true, m')) :
    (recent window now m k).length < limit ∧ m' = KV.set m k (recent window now m k ++ [now]) := by
  unfold allow at h
  split at h
  · cases h
  · cases h
    exact ⟨by omega, rfl⟩

theorem recent_set {window now now' : Nat} {m : Table} {k k' : Text} (hn : now ≤ now') :
    recent window now' (KV.set m k (recent window now m k ++ [now])) k' =
      if k' = k then recent window now' m k' ++ (if now' < now + window then [now] else []) else recent window now' m k' := by
  by_cases hk : k' = k
  · subst hk
    rw [if_pos rfl]
    show (((KV.get (KV.set m k' _) k').getD []).filter _) = _
    rw [KV.get_set, if_pos rfl, Option.getD_some, List.filter_append]
    congr 1
    · unfold recent
      rw [List.filter_filter]
      apply List.filter_congr
      intro x _
      by_cases h : now' < x + window
      · rw [decide_eq_true h, decide_eq_true (by omega : now < x + window)]
        rfl
      · rw [decide_eq_false h]
        rfl
    · by_cases h : now' < now + window
      · rw [if_pos h, List.filter_cons_of_pos (by exact decide_eq_true h)]
        rfl
      · rw [if_neg h, List.filter_cons_of_neg (by rw [decide_eq_false h]; exact Bool.false_ne_true)]
        rfl
  · rw [if_neg hk]
    show (((KV.get (KV.set m k _) k').getD []).filter _) = _
    rw [KV.get_set, if_neg hk]
    rfl

theorem tracks_allow {limit window now T : Nat} {m m' : Table} {k : Text} {hist hist' : Text → List Nat} (h : Tracks window T m hist)
    (hT : T ≤ now) (ha : allow limit window now m k = (true, m')) (hk : hist' k = now :: hist k) (ho : ∀ k', k' ≠ k → hist' k' = hist k') :
    Tracks window now m' hist' := by
  intro now' k' hn
  obtain ⟨_, rfl⟩ := allow_true ha
  rw [recent_set hn, h now' k' (Nat.le_trans hT hn)]
  by_cases e : k' = k
  · subst e
    rw [if_pos rfl, hk]
    by_cases hw : now' < now + window
    · rw [if_pos hw, List.filter_cons_of_pos (by exact decide_eq_true hw), List.reverse_cons]
    · rw [if_neg hw, List.filter_cons_of_neg (by rw [decide_eq_false hw]; exact Bool.false_ne_true), List.append_nil]
  · rw [if_neg e, ho k' e]

/-- The latest time can be added to times that obey the limit, if fewer than the limit are in the window that ends there. -/
theorem within_cons {window limit now : Nat} {l : List Nat} (h : ∀ t, within window t l ≤ limit)
    (hn : (l.filter (fun x => decide (now < x + window))).length < limit) (t : Nat) : within window t (now :: l) ≤ limit := by
  unfold within at h ⊢
  by_cases ht : now ≤ t ∧ t < now + window
  · rw [List.filter_cons_of_pos (by exact decide_eq_true ht), List.length_cons]
    have : (l.filter (fun x => decide (x ≤ t ∧ t < x + window))).length ≤ (l.filter (fun x => decide (now < x + window))).length := by
      rw [← List.countP_eq_length_filter, ← List.countP_eq_length_filter]
      apply List.countP_mono_left
      intro x _ hx
      have := of_decide_eq_true hx
      exact decide_eq_true (by omega)
    omega
  · rw [List.filter_cons_of_neg (by rw [decide_eq_false ht]; exact Bool.false_ne_true)]
    exact h t

/-! ## Events -/

theorem since_cons {e : Event} (he : e ≠ .emptied) (l : List Event) : since (e :: l) = e :: since l := if_neg he

theorem passes_cons_other {e : Event} (he : e ≠ .emptied) (l : List Event) {k : Text} (h : passTime k e = none) :
    passes (e :: l) k = passes l k := by
  unfold passes
  rw [since_cons he, List.filterMap_cons, h]

theorem counts_cons_other {e : Event} (he : e ≠ .emptied) (l : List Event) {m k : Text} (h : countTime m k e = none) :
    counts (e :: l) m k = counts l m k := by
  unfold counts
  rw [since_cons he, List.filterMap_cons, h]

theorem works_cons_other {e : Event} (he : e ≠ .emptied) (l : List Event) {k : Text} (h : doneTime k e = none) :
    works (e :: l) k = works l k := by
  unfold works
  rw [since_cons he, List.filterMap_cons, h]

theorem passes_cons_same (l : List Event) (t : Nat) (k : Text) : passes (.passed t k :: l) k = t :: passes l k := by
  unfold passes
  rw [since_cons (e := .passed t k) (by exact fun h => nomatch h), List.filterMap_cons]
  rw [show passTime k (.passed t k) = some t from if_pos rfl]

theorem counts_cons_same (l : List Event) (t : Nat) (m k : Text) : counts (.counted t m k :: l) m k = t :: counts l m k := by
  unfold counts
  rw [since_cons (e := .counted t m k) (by exact fun h => nomatch h), List.filterMap_cons]
  rw [show countTime m k (.counted t m k) = some t from if_pos ⟨rfl, rfl⟩]

theorem works_cons_same (l : List Event) (t d : Nat) (k : Text) : works (.done t d k :: l) k = (t, d) :: works l k := by
  unfold works
  rw [since_cons (e := .done t d k) (by exact fun h => nomatch h), List.filterMap_cons]
  rw [show doneTime k (.done t d k) = some (t, d) from if_pos rfl]

/-! ## The invariant of tables -/

/-- Tables say what happened, and what happened obeys the limits. -/
structure Inv (c : Conf) (T : Nat) (s : S) (evs : List Event) : Prop where
  rate : Tracks c.window T s.rate (passes evs)
  rateOk : ∀ k t, within c.window t (passes evs k) ≤ c.limit
  meth : ∀ m lim tab, KV.get s.methods m = some (lim, tab) → lim = limitOf c m ∧ Tracks c.window T tab (counts evs m)
  methNone : ∀ m, KV.get s.methods m = none → KV.get c.own m = none ∧ ∀ k, counts evs m k = []
  methOk : ∀ m k t, within c.window t (counts evs m k) ≤ limitOf c m
  comp : ∀ k, KV.get s.comp k = if works evs k = [] then none else some (works evs k).reverse
  ins : ∀ id r, KV.get s.reqs id = some (r, .inserting) → KV.get s.methods (methodOf r) = none
  one : ∀ id r id' r', KV.get s.reqs id = some (r, .inserting) → KV.get s.reqs id' = some (r', .inserting) → id = id'

/-- Events that no table is about. -/
def Neutral (e : Event) : Prop := e ≠ .emptied ∧ (∀ k, passTime k e = none) ∧ (∀ m k, countTime m k e = none) ∧ ∀ k, doneTime k e = none

theorem neutral_refused (id : Nat) : Neutral (.refused id) :=
  ⟨(fun h => nomatch h), fun _ => rfl, fun _ _ => rfl, fun _ => rfl⟩

theorem neutral_started (now id : Nat) (r : Request) : Neutral (.started now id r) :=
  ⟨(fun h => nomatch h), fun _ => rfl, fun _ _ => rfl, fun _ => rfl⟩

theorem Inv.mono {c : Conf} {T T' : Nat} {s : S} {evs : List Event} (h : Inv c T s evs) (hT : T ≤ T') : Inv c T' s evs :=
  ⟨h.rate.mono hT, h.rateOk, fun m lim tab hm => ⟨(h.meth m lim tab hm).1, (h.meth m lim tab hm).2.mono hT⟩, h.methNone, h.methOk, h.comp,
    h.ins, h.one⟩

/-- A step that changes no table and leaves no new request inserting. -/
theorem Inv.frame {c : Conf} {T : Nat} {s s' : S} {evs l : List Event} (h : Inv c T s evs) (h1 : s'.rate = s.rate) (h2 : s'.methods = s.methods)
    (h3 : s'.comp = s.comp) (h4 : ∀ id r, KV.get s'.reqs id = some (r, .inserting) → KV.get s.reqs id = some (r, .inserting))
    (hl : ∀ e ∈ l, Neutral e) : Inv c T s' (l ++ evs) := by
  have hp : ∀ k, passes (l ++ evs) k = passes evs k := by
    intro k
    induction l with
    | nil => rfl
    | cons e l ih =>
      have he := hl e List.mem_cons_self
      rw [List.cons_append, passes_cons_other he.1 _ (he.2.1 k)]
      exact ih (fun e he => hl e (List.mem_cons_of_mem _ he))
  have hc : ∀ m k, counts (l ++ evs) m k = counts evs m k := by
    intro m k
    clear hp
    induction l with
    | nil => rfl
    | cons e l ih =>
      have he := hl e List.mem_cons_self
      rw [List.cons_append, counts_cons_other he.1 _ (he.2.2.1 m k)]
      exact ih (fun e he => hl e (List.mem_cons_of_mem _ he))
  have hw : ∀ k, works (l ++ evs) k = works evs k := by
    intro k
    clear hp hc
    induction l with
    | nil => rfl
    | cons e l ih =>
      have he := hl e List.mem_cons_self
      rw [List.cons_append, works_cons_other he.1 _ (he.2.2.2 k)]
      exact ih (fun e he => hl e (List.mem_cons_of_mem _ he))
  refine ⟨?_, ?_, ?_, ?_, ?_, ?_, ?_, ?_⟩
  · rw [h1, funext hp]; exact h.rate
  · intro k t; rw [hp]; exact h.rateOk k t
  · intro m lim tab hm
    rw [h2] at hm
    rw [funext (hc m)]
    exact h.meth m lim tab hm
  · intro m hm
    rw [h2] at hm
    refine ⟨(h.methNone m hm).1, fun k => ?_⟩
    rw [hc]; exact (h.methNone m hm).2 k
  · intro m k t; rw [hc]; exact h.methOk m k t
  · intro k; rw [h3, hw]; exact h.comp k
  · intro id r hr
    rw [h2]
    exact h.ins id r (h4 id r hr)
  · exact fun id r id' r' hr hr' => h.one id r id' r' (h4 id r hr) (h4 id' r' hr')

theorem ins_close {s : S} {id id' : Nat} {r r' : Request} (h : KV.get (close s id r).reqs id' = some (r', .inserting)) :
    KV.get s.reqs id' = some (r', .inserting) := by
  have h : KV.get (KV.del s.reqs id) id' = some (r', .inserting) := h
  rw [KV.get_del] at h
  split at h
  · cases h
  · exact h

theorem ins_set {l : List (Nat × (Request × Phase))} {id id' : Nat} {r r' : Request} {p : Phase} (hp : p ≠ .inserting)
    (h : KV.get (KV.set l id (r, p)) id' = some (r', .inserting)) : KV.get l id' = some (r', .inserting) := by
  rw [KV.get_set] at h
  split at h
  · cases h
    exact absurd rfl hp
  · exact h

theorem inv_init (c : Conf) : Inv c 0 (init c) [] := by
  have hg : ∀ m, KV.get (init c).methods m = (KV.get c.own m).map (fun l => (l, [])) := by
    intro m
    show KV.get (c.own.map (fun x => (x.1, (x.2, ([] : Table))))) m = _
    induction c.own with
    | nil => rfl
    | cons x l ih =>
      rw [List.map_cons, KV.get_cons, KV.get_cons]
      by_cases h : x.1 = m
      · rw [if_pos h, if_pos h]; rfl
      · rw [if_neg h, if_neg h]; exact ih
  refine ⟨tracks_nil _ _, fun _ _ => Nat.zero_le _, fun m lim tab hm => ?_, fun m hm => ?_, fun _ _ _ => Nat.zero_le _, fun _ => rfl, ?_, ?_⟩
  · rw [hg] at hm
    unfold limitOf
    cases ho : KV.get c.own m with
    | none => rw [ho] at hm; cases hm
    | some l =>
      rw [ho] at hm
      cases hm
      exact ⟨rfl, tracks_nil _ _⟩
  · rw [hg] at hm
    refine ⟨?_, fun _ => rfl⟩
    cases ho : KV.get c.own m with
    | none => rfl
    | some l => rw [ho] at hm; cases hm
  · exact fun _ _ h => nomatch h
  · exact fun _ _ _ _ h => nomatch h

theorem inv_passed {c : Conf} {T now : Nat} {s : S} {evs : List Event} (h : Inv c T s evs) (hT : T ≤ now) {k : Text} {m : Table}
    (ha : allow c.limit c.window now s.rate k = (true, m)) {reqs : List (Nat × (Request × Phase))}
    (hr : ∀ id r, KV.get reqs id = some (r, .inserting) → KV.get s.reqs id = some (r, .inserting)) :
    Inv c now { s with rate := m, reqs := reqs } (.passed now k :: evs) := by
  have hne : Event.passed now k ≠ .emptied := fun h => nomatch h
  have hpo : ∀ k', k' ≠ k → passes (.passed now k :: evs) k' = passes evs k' :=
    fun k' hk => passes_cons_other hne _ (if_neg (Ne.symm hk))
  have hlt : ((passes evs k).filter (fun x => decide (now < x + c.window))).length < c.limit := by
    have := (allow_true ha).1
    rw [h.rate now k hT, List.length_reverse] at this
    exact this
  have h' := h.mono hT
  refine ⟨tracks_allow h.rate hT ha (passes_cons_same _ _ _) hpo, fun k' t => ?_, fun m' lim tab hm => ?_, fun m' hm => ?_, fun m' k' t => ?_,
    fun k' => ?_, ?_, ?_⟩
  · by_cases e : k' = k
    · rw [e, passes_cons_same]
      exact within_cons (h.rateOk k) hlt t
    · rw [hpo k' e]; exact h.rateOk k' t
  · rw [show counts (.passed now k :: evs) m' = counts evs m' from funext fun k' => counts_cons_other hne _ rfl]
    exact h'.meth m' lim tab hm
  · refine ⟨(h.methNone m' hm).1, fun k' => ?_⟩
    rw [counts_cons_other hne _ rfl]
    exact (h.methNone m' hm).2 k'
  · rw [counts_cons_other hne _ rfl]; exact h.methOk m' k' t
  · rw [works_cons_other hne _ rfl]; exact h.comp k'
  · exact fun id r hi => h.ins id r (hr id r hi)
  · exact fun id r id' r' hi hi' => h.one id r id' r' (hr id r hi) (hr id' r' hi')

theorem inv_counted {c : Conf} {T now : Nat} {s : S} {evs : List Event} (h : Inv c T s evs) (hT : T ≤ now) {m k : Text} {lim : Nat} {t t' : Table}
    (hm : KV.get s.methods m = some (lim, t)) (ha : allow lim c.window now t k = (true, t')) {reqs : List (Nat × (Request × Phase))}
    (hr : ∀ id r, KV.get reqs id = some (r, .inserting) → KV.get s.reqs id = some (r, .inserting)) :
    Inv c now { s with methods := KV.set s.methods m (lim, t'), reqs := reqs } (.counted now m k :: evs) := by
  have hne : Event.counted now m k ≠ .emptied := fun h => nomatch h
  have hco : ∀ m' k', ¬ (m' = m ∧ k' = k) → counts (.counted now m k :: evs) m' k' = counts evs m' k' :=
    fun m' k' hk => counts_cons_other hne _ (if_neg (fun e => hk ⟨e.1.symm, e.2.symm⟩))
  obtain ⟨hlim, htr⟩ := h.meth m lim t hm
  have hlt : ((counts evs m k).filter (fun x => decide (now < x + c.window))).length < limitOf c m := by
    have := (allow_true ha).1
    rw [htr now k hT, List.length_reverse, hlim] at this
    exact this
  have h' := h.mono hT
  refine ⟨?_, fun k' x => ?_, fun m' lim' tab hm' => ?_, fun m' hm' => ?_, fun m' k' x => ?_, fun k' => ?_, ?_, ?_⟩
  · rw [show passes (.counted now m k :: evs) = passes evs from funext fun k' => passes_cons_other hne _ rfl]
    exact h'.rate
  · rw [passes_cons_other hne _ rfl]; exact h.rateOk k' x
  · have hm' : KV.get (KV.set s.methods m (lim, t')) m' = some (lim', tab) := hm'
    rw [KV.get_set] at hm'
    by_cases e : m' = m
    · rw [if_pos e] at hm'
      cases hm'
      subst e
      exact ⟨hlim, tracks_allow htr hT ha (counts_cons_same _ _ _ _) fun k' hk => hco _ _ fun e => hk e.2⟩
    · rw [if_neg e] at hm'
      rw [show counts (.counted now m k :: evs) m' = counts evs m' from funext fun k' => hco _ _ fun x => e x.1]
      exact h'.meth m' lim' tab hm'
  · have hm' : KV.get (KV.set s.methods m (lim, t')) m' = none := hm'
    rw [KV.get_set] at hm'
    by_cases e : m' = m
    · rw [if_pos e] at hm'; cases hm'
    · rw [if_neg e] at hm'
      refine ⟨(h.methNone m' hm').1, fun k' => ?_⟩
      rw [hco _ _ fun x => e x.1]
      exact (h.methNone m' hm').2 k'
  · by_cases e : m' = m ∧ k' = k
    · rw [e.1, e.2, counts_cons_same]
      exact within_cons (h.methOk m k) hlt x
    · rw [hco _ _ e]; exact h.methOk m' k' x
  · rw [works_cons_other hne _ rfl]; exact h.comp k'
  · intro id r hi
    show KV.get (KV.set s.methods m (lim, t')) (methodOf r) = none
    have := h.ins id r (hr id r hi)
    rw [KV.get_set]
    split
    · rename_i e
      rw [e, hm] at this
      cases this
    · exact this
  · exact fun id r id' r' hi hi' => h.one id r id' r' (hr id r hi) (hr id' r' hi')

/-- A limiter for a method that has none. -/
theorem inv_insert {c : Conf} {T : Nat} {s : S} {evs : List Event} (h : Inv c T s evs) {m : Text} (hm : KV.get s.methods m = none)
    {reqs : List (Nat × (Request × Phase))} (hr : ∀ id r, KV.get reqs id ≠ some (r, .inserting)) :
    Inv c T { s with methods := KV.set s.methods m (c.limit, []), reqs := reqs } evs := by
  refine ⟨h.rate, h.rateOk, fun m' lim' tab hm' => ?_, fun m' hm' => ?_, h.methOk, h.comp, fun id r hi => absurd hi (hr id r),
    fun id r _ _ hi => absurd hi (hr id r)⟩
  · have hm' : KV.get (KV.set s.methods m (c.limit, [])) m' = some (lim', tab) := hm'
    rw [KV.get_set] at hm'
    by_cases e : m' = m
    · rw [if_pos e] at hm'
      cases hm'
      subst e
      obtain ⟨h1, h2⟩ := h.methNone m' hm
      refine ⟨by unfold limitOf; rw [h1]; rfl, ?_⟩
      rw [funext h2]
      exact tracks_nil _ _
    · rw [if_neg e] at hm'
      exact h.meth m' lim' tab hm'
  · have hm' : KV.get (KV.set s.methods m (c.limit, [])) m' = none := hm'
    rw [KV.get_set] at hm'
    by_cases e : m' = m
    · rw [if_pos e] at hm'; cases hm'
    · rw [if_neg e] at hm'; exact h.methNone m' hm'

theorem inv_reset {c : Conf} {T : Nat} {s : S} {evs : List Event} (h : Inv c T s evs) {reqs : List (Nat × (Request × Phase))}
    {conns : List Text} (hr : ∀ id r, KV.get reqs id ≠ some (r, .inserting)) :
    Inv c T { reset s with conns := conns, reqs := reqs } (.emptied :: evs) := by
  have hg : ∀ m, KV.get (reset s).methods m = (KV.get s.methods m).map (fun x => (x.1, [])) := by
    intro m
    show KV.get (s.methods.map (fun x => (x.1, (x.2.1, ([] : Table))))) m = _
    induction s.methods with
    | nil => rfl
    | cons x l ih =>
      rw [List.map_cons, KV.get_cons, KV.get_cons]
      by_cases h : x.1 = m
      · rw [if_pos h, if_pos h]; rfl
      · rw [if_neg h, if_neg h]; exact ih
  refine ⟨tracks_nil _ _, fun _ _ => Nat.zero_le _, fun m lim tab hm => ?_, fun m hm => ?_, fun _ _ _ => Nat.zero_le _, fun _ => rfl,
    fun id r hi => absurd hi (hr id r), fun id r _ _ hi => absurd hi (hr id r)⟩
  · have hm : KV.get (reset s).methods m = some (lim, tab) := hm
    rw [hg] at hm
    cases ho : KV.get s.methods m with
    | none => rw [ho] at hm; cases hm
    | some l =>
      rw [ho] at hm
      cases hm
      exact ⟨(h.meth m l.1 l.2 ho).1, tracks_nil _ _⟩
  · have hm : KV.get (reset s).methods m = none := hm
    rw [hg] at hm
    cases ho : KV.get s.methods m with
    | none => exact ⟨(h.methNone m ho).1, fun _ => rfl⟩
    | some l => rw [ho] at hm; cases hm

theorem inv_done {c : Conf} {T now dur : Nat} {s : S} {evs : List Event} (h : Inv c T s evs) {k : Text}
    {reqs : List (Nat × (Request × Phase))} {conns : List Text}
    (hr : ∀ id r, KV.get reqs id = some (r, .inserting) → KV.get s.reqs id = some (r, .inserting)) :
    Inv c T { s with comp := KV.set s.comp k ((KV.get s.comp k).getD [] ++ [(now, dur)]), conns := conns, reqs := reqs }
      (.done now dur k :: evs) := by
  have hne : Event.done now dur k ≠ .emptied := fun h => nomatch h
  refine ⟨?_, fun k' x => ?_, fun m' lim' tab hm' => ?_, fun m' hm' => ?_, fun m' k' x => ?_, fun k' => ?_, ?_, ?_⟩
  · rw [show passes (.done now dur k :: evs) = passes evs from funext fun k' => passes_cons_other hne _ rfl]
    exact h.rate
  · rw [passes_cons_other hne _ rfl]; exact h.rateOk k' x
  · rw [show counts (.done now dur k :: evs) m' = counts evs m' from funext fun k' => counts_cons_other hne _ rfl]
    exact h.meth m' lim' tab hm'
  · refine ⟨(h.methNone m' hm').1, fun k' => ?_⟩
    rw [counts_cons_other hne _ rfl]
    exact (h.methNone m' hm').2 k'
  · rw [counts_cons_other hne _ rfl]; exact h.methOk m' k' x
  · show KV.get (KV.set s.comp k _) k' = _
    rw [KV.get_set]
    by_cases e : k' = k
    · subst e
      rw [if_pos rfl, works_cons_same, if_neg (List.cons_ne_nil _ _), List.reverse_cons, h.comp k']
      by_cases hw : works evs k' = []
      · rw [if_pos hw, hw]; rfl
      · rw [if_neg hw]; rfl
    · rw [if_neg e, works_cons_other hne _ (if_neg (Ne.symm e))]
      exact h.comp k'
  · exact fun id r hi => h.ins id r (hr id r hi)
  · exact fun id r id' r' hi hi' => h.one id r id' r' (hr id r hi) (hr id' r' hi')

theorem inv_count {c : Conf} {T now id : Nat} {s : S} {evs : List Event} (h : Inv c T s evs) (hT : T ≤ now) (r : Request) :
    Inv c now (advance.count c id now s r).1 ((advance.count c id now s r).2 ++ evs) := by
  unfold advance.count
  cases hm : KV.get s.methods (methodOf r) with
  | none => exact h.mono hT
  | some x =>
    obtain ⟨lim, t⟩ := x
    dsimp only
    cases ha : allow lim c.window now t (clientIP r) with
    | mk b t' =>
      cases b with
      | false =>
        exact (h.mono hT).frame rfl rfl rfl (fun id' r' hi => ins_close hi)
          (fun e he => by rw [List.mem_singleton.1 he]; exact neutral_refused _)
      | true => exact inv_counted h hT hm ha (fun id' r' hi => ins_set (by exact fun h => nomatch h) hi)

theorem any_inserting {l : List (Nat × (Request × Phase))} (h : (l.any (fun x => decide (x.2.2 = .inserting))) = false) (id : Nat) (r : Request) :
    KV.get l id ≠ some (r, .inserting) := by
  intro hg
  have := KV.mem_of_get hg
  rw [List.any_eq_false] at h
  exact h _ this (decide_eq_true rfl)

theorem inv_step {c : Conf} {T : Nat} {s : S} {evs : List Event} (h : Inv c T s evs) (op : Op) {T' : Nat}
    (hT : T ≤ T') (ht : ∀ t, opTime op = some t → t = T') :
    Inv c T' (step c s op).1 ((step c s op).2 ++ evs) := by
  unfold step
  split
  · exact h.mono hT
  cases op with
  | arrive id r =>
    show Inv c T' (arrive c s id r).1 ((arrive c s id r).2 ++ evs)
    unfold arrive
    split
    · exact h.mono hT
    · split
      · exact (h.mono hT).frame rfl rfl rfl (fun _ _ hi => hi) (fun e he => by rw [List.mem_singleton.1 he]; exact neutral_refused _)
      · exact (h.mono hT).frame (l := []) rfl rfl rfl (fun id' r' hi => ins_set (by exact fun h => nomatch h) hi) (fun e he => nomatch he)
  | advance id now avg =>
    have hn := ht now rfl
    subst hn
    show Inv c now (advance c s id now avg).1 ((advance c s id now avg).2 ++ evs)
    unfold advance
    cases hg : KV.get s.reqs id with
    | none => exact h.mono hT
    | some x =>
      obtain ⟨r, p⟩ := x
      cases p with
      | connected =>
        dsimp only
        cases ha : allow c.limit c.window now s.rate (clientIP r) with
        | mk b m =>
          cases b with
          | false =>
            exact (h.mono hT).frame rfl rfl rfl (fun id' r' hi => ins_close hi)
              (fun e he => by rw [List.mem_singleton.1 he]; exact neutral_refused _)
          | true => exact inv_passed h hT ha (fun id' r' hi => ins_set (by exact fun h => nomatch h) hi)
      | rated =>
        dsimp only
        split
        · split
          · exact h.mono hT
          · rename_i hi
            exact inv_reset (h.mono hT) (fun id' r' he => any_inserting (Bool.eq_false_iff.2 hi) id' r' (ins_close (s := s) (r := r) he))
        · split
          · exact (h.mono hT).frame (l := []) rfl rfl rfl (fun _ _ hi => hi) (fun e he => nomatch he)
          · rename_i hi
            have hno := any_inserting (Bool.eq_false_iff.2 hi)
            split
            · rename_i hm
              have hm := Option.isNone_iff_eq_none.1 hm
              have h' := h.mono hT
              have hx : ∀ id' r', KV.get (KV.set s.reqs id (r, .inserting)) id' = some (r', .inserting) → id' = id ∧ r' = r := by
                intro id' r' he
                rw [KV.get_set] at he
                split at he
                · rename_i e
                  cases he
                  exact ⟨e, rfl⟩
                · exact absurd he (hno id' r')
              refine ⟨h'.rate, h'.rateOk, h'.meth, h'.methNone, h'.methOk, h'.comp, fun id' r' he => ?_, fun id1 r1 id2 r2 he1 he2 => ?_⟩
              · obtain ⟨_, e⟩ := hx id' r' he
                rw [e]
                exact hm
              · rw [(hx id1 r1 he1).1, (hx id2 r2 he2).1]
            · exact inv_count h hT r
      | inserting =>
        dsimp only
        have hm := h.ins id r hg
        have h' := h.mono hT
        -- the request is no longer inserting, and no other is
        have hins : ∀ {p : Phase} (_ : p ≠ .inserting) id' r', KV.get (KV.set s.reqs id (r, p)) id' ≠ some (r', .inserting) := by
          intro p hp id' r' he
          rw [KV.get_set] at he
          split at he
          · cases he; exact hp rfl
          · rename_i hne
            exact hne (h.one id' r' id r he hg)
        have hdel : ∀ id' r', KV.get (KV.del s.reqs id) id' ≠ some (r', .inserting) := by
          intro id' r' he
          rw [KV.get_del] at he
          split at he
          · cases he
          · rename_i hne
            exact hne (h.one id' r' id r he hg)
        unfold advance.count
        have hgm : KV.get (KV.set s.methods (methodOf r) (c.limit, ([] : Table))) (methodOf r) = some (c.limit, []) := by
          rw [KV.get_set, if_pos rfl]
        dsimp only
        rw [hgm]
        dsimp only
        cases ha : allow c.limit c.window now [] (clientIP r) with
        | mk b t' =>
          cases b with
          | false =>
            have h2 := inv_insert h' hm (reqs := KV.del s.reqs id) hdel
            exact h2.frame rfl rfl rfl (fun _ _ hi => hi) (fun e he => by rw [List.mem_singleton.1 he]; exact neutral_refused _)
          | true =>
            have h2 := inv_insert h' hm (reqs := KV.set s.reqs id (r, .counted)) (hins (fun h => nomatch h))
            exact inv_counted h2 (Nat.le_refl _) hgm ha (fun _ _ hi => hi)
      | counted =>
        dsimp only
        split
        · exact (h.mono hT).frame rfl rfl rfl (fun id' r' hi => ins_set (by exact fun h => nomatch h) hi)
            (fun e he => by rw [List.mem_singleton.1 he]; exact neutral_started _ _ _)
        · exact (h.mono hT).frame rfl rfl rfl (fun id' r' hi => ins_close hi)
            (fun e he => by rw [List.mem_singleton.1 he]; exact neutral_refused _)
      | working => exact h.mono hT
  | finish id now dur =>
    show Inv c T' (finish s id now dur).1 ((finish s id now dur).2 ++ evs)
    unfold finish
    split
    · rename_i r _
      exact inv_done (h.mono hT) (fun id' r' hi => ins_close (s := s) (r := r) hi)
    · exact h.mono hT
  | timeout id =>
    show Inv c T' (timeout s id).1 ((timeout s id).2 ++ evs)
    unfold timeout
    split
    · exact (h.mono hT).frame (l := []) rfl rfl rfl (fun id' r' hi => ins_close hi) (fun e he => nomatch he)
    · exact h.mono hT

/-- After any schedule in which time does not run backwards, for every time not before the last step. -/
theorem inv_run (c : Conf) (ops : List Op) : Clocked ops → ∀ T, (∀ x ∈ ops.filterMap opTime, x ≤ T) → Inv c T (run c ops).1 (run c ops).2 := by
  induction ops using snoc_induction with
  | h0 => exact fun _ T _ => (inv_init c).mono (Nat.zero_le _)
  | h1 ops op ih =>
    intro hc T hT
    obtain ⟨h1, h2⟩ := clocked_snoc hc
    rw [run_snoc]
    rw [List.filterMap_append] at hT
    cases ho : opTime op with
    | none => exact inv_step (ih h1 T (fun x hx => hT x (List.mem_append_left _ hx))) op (Nat.le_refl _) (fun t ht => by rw [ho] at ht; cases ht)
    | some t =>
      have h3 := inv_step (ih h1 t (h2 t ho)) op (Nat.le_refl _) (T' := t) (fun t' ht => by rw [ho] at ht; cases ht; rfl)
      refine h3.mono (hT t (List.mem_append_right _ ?_))
      rw [List.filterMap_cons, ho]
      exact List.mem_cons_self

/-! ## Connections -/

theorem conns_step {c : Conf} {s : S} (h : s.conns.Nodup ∧ s.conns.length ≤ c.maxConn) (op : Op) :
    (step c s op).1.conns.Nodup ∧ (step c s op).1.conns.length ≤ c.maxConn := by
  have hrem : ∀ k, (removeConn s.conns k).Nodup ∧ (removeConn s.conns k).length ≤ c.maxConn := fun k =>
    ⟨h.1.sublist List.filter_sublist, Nat.le_trans (List.length_filter_le _ _) h.2⟩
  unfold step
  split
  · exact h
  cases op with
  | arrive id r =>
    show (arrive c s id r).1.conns.Nodup ∧ (arrive c s id r).1.conns.length ≤ c.maxConn
    unfold arrive
    split
    · exact h
    · split
      · exact h
      · show (addConn s.conns (clientIP r)).Nodup ∧ (addConn s.conns (clientIP r)).length ≤ c.maxConn
        unfold addConn
        split
        · exact h
        · rename_i hm
          refine ⟨List.nodup_cons.2 ⟨hm, h.1⟩, ?_⟩
          rw [List.length_cons]
          omega
  | advance id now avg =>
    show (advance c s id now avg).1.conns.Nodup ∧ (advance c s id now avg).1.conns.length ≤ c.maxConn
    have hcount : ∀ (s' : S) (r : Request), s'.conns = s.conns →
        (advance.count c id now s' r).1.conns.Nodup ∧ (advance.count c id now s' r).1.conns.length ≤ c.maxConn := by
      intro s' r hs
      unfold advance.count
      split
      · rw [hs]; exact h
      · split
        · show (removeConn s'.conns _).Nodup ∧ (removeConn s'.conns _).length ≤ _
          rw [hs]; exact hrem _
        · show s'.conns.Nodup ∧ s'.conns.length ≤ _
          rw [hs]; exact h
    unfold advance
    split
    · exact h
    · split
      · exact hrem _
      · exact h
    · split
      · split
        · exact h
        · exact hrem _
      · split
        · exact h
        · split
          · exact h
          · exact hcount s _ rfl
    · exact hcount _ _ rfl
    · split
      · exact h
      · exact hrem _
    · exact h
  | finish id now dur =>
    show (finish s id now dur).1.conns.Nodup ∧ (finish s id now dur).1.conns.length ≤ c.maxConn
    unfold finish
    split
    · exact hrem _
    · exact h
  | timeout id =>
    show (timeout s id).1.conns.Nodup ∧ (timeout s id).1.conns.length ≤ c.maxConn
    unfold timeout
    split
    · exact hrem _
    · exact h

theorem conns_run (c : Conf) (ops : List Op) : (run c ops).1.conns.Nodup ∧ (run c ops).1.conns.length ≤ c.maxConn := by
  induction ops using snoc_induction with
  | h0 => exact ⟨.nil, Nat.zero_le _⟩
  | h1 ops op ih => rw [run_snoc]; exact conns_step ih op

/-- Exactly the clients with open requests are counted, and each has one. -/
structure Fair (s : S) : Prop where
  ids : KV.Distinct s.reqs
  clients : (s.reqs.map (fun x => clientIP x.2.1)).Nodup
  conns : s.conns.Nodup
  mem : ∀ k, k ∈ s.conns ↔ k ∈ s.reqs.map (fun x => clientIP x.2.1)

theorem fair_congr {s s' : S} (h : Fair s) (h1 : s'.conns = s.conns) (h2 : s'.reqs = s.reqs) : Fair s' := by
  cases s; cases s'
  cases h1; cases h2
  exact ⟨h.ids, h.clients, h.conns, h.mem⟩

theorem mem_clients {l : List (Nat × (Request × Phase))} {k : Text} : k ∈ l.map (fun x => clientIP x.2.1) ↔ ∃ x ∈ l, clientIP x.2.1 = k := by
  rw [List.mem_map]

theorem eq_of_nodup_map {α β : Type} {f : α → β} {l : List α} (h : (l.map f).Nodup) {x y : α} (hx : x ∈ l) (hy : y ∈ l) (e : f x = f y) : x = y := by
  induction l with
  | nil => cases hx
  | cons a l ih =>
    rw [List.map_cons, List.nodup_cons] at h
    rcases List.mem_cons.1 hx with e1 | e1 <;> rcases List.mem_cons.1 hy with e2 | e2
    · rw [e1, e2]
    · exact absurd (List.mem_map.2 ⟨y, e2, by rw [← e, e1]⟩) h.1
    · exact absurd (List.mem_map.2 ⟨x, e1, by rw [e, e2]⟩) h.1
    · exact ih h.2 e1 e2

theorem fair_close {s : S} (h : Fair s) {id : Nat} {r : Request} {p : Phase} (hg : KV.get s.reqs id = some (r, p)) : Fair (close s id r) := by
  have hm := KV.mem_of_get hg
  refine ⟨KV.distinct_del h.ids _, h.clients.sublist (List.filter_sublist.map _), h.conns.sublist List.filter_sublist, fun k => ?_⟩
  show k ∈ s.conns.filter _ ↔ k ∈ (KV.del s.reqs id).map _
  rw [List.mem_filter, h.mem, mem_clients, mem_clients]
  constructor
  · rintro ⟨⟨x, hx, e⟩, hk⟩
    refine ⟨x, KV.mem_del.2 ⟨hx, fun e1 => ?_⟩, e⟩
    have hx' : x = (id, (r, p)) := eq_of_nodup_map (f := fun y : Nat × (Request × Phase) => y.1) h.ids hx hm e1
    rw [hx'] at e
    exact of_decide_eq_true hk e.symm
  · rintro ⟨x, hx, e⟩
    obtain ⟨h1, h2⟩ := KV.mem_del.1 hx
    refine ⟨⟨x, h1, e⟩, decide_eq_true fun e1 => h2 ?_⟩
    have hx' : x = (id, (r, p)) := eq_of_nodup_map h.clients h1 hm (by rw [e, e1])
    rw [hx']

theorem fair_set {s s' : S} (h : Fair s) {id : Nat} {r : Request} {p p' : Phase} (hg : KV.get s.reqs id = some (r, p)) (h1 : s'.conns = s.conns)
    (h2 : s'.reqs = KV.set s.reqs id (r, p')) : Fair s' := by
  have hm := KV.mem_of_get hg
  have hmem : ∀ k, k ∈ s'.reqs.map (fun x => clientIP x.2.1) ↔ k ∈ s.reqs.map (fun x => clientIP x.2.1) := by
    intro k
    rw [h2, mem_clients, mem_clients]
    constructor
    · rintro ⟨x, hx, e⟩
      rcases List.mem_cons.1 hx with e1 | e1
      · rw [e1] at e
        exact ⟨_, hm, e⟩
      · exact ⟨x, (KV.mem_del.1 e1).1, e⟩
    · rintro ⟨x, hx, e⟩
      by_cases e1 : x.1 = id
      · have hx' : x = (id, (r, p)) := eq_of_nodup_map (f := fun y : Nat × (Request × Phase) => y.1) h.ids hx hm e1
        rw [hx'] at e
        exact ⟨(id, (r, p')), List.mem_cons_self, e⟩
      · exact ⟨x, List.mem_cons_of_mem _ (KV.mem_del.2 ⟨hx, e1⟩), e⟩
  refine ⟨by rw [h2]; exact KV.distinct_set h.ids _ _, ?_, by rw [h1]; exact h.conns, fun k => by rw [h1, hmem]; exact h.mem k⟩
  rw [h2]
  show (clientIP r :: (KV.del s.reqs id).map (fun x => clientIP x.2.1)).Nodup
  refine List.nodup_cons.2 ⟨fun hk => ?_, h.clients.sublist (List.filter_sublist.map _)⟩
  obtain ⟨x, hx, e⟩ := mem_clients.1 hk
  obtain ⟨h3, h4⟩ := KV.mem_del.1 hx
  have hx' : x = (id, (r, p)) := eq_of_nodup_map h.clients h3 hm e
  exact h4 (by rw [hx'])

theorem fair_step {c : Conf} {s : S} (h : Fair s) (op : Op) (ho : ∀ id r, op = .arrive id r → ∀ x ∈ s.reqs, clientIP x.2.1 ≠ clientIP r) :
    Fair (step c s op).1 := by
  unfold step
  split
  · exact h
  cases op with
  | arrive id r =>
    show Fair (arrive c s id r).1
    unfold arrive
    split
    · exact h
    · rename_i hid
      have hid : KV.get s.reqs id = none := by
        cases hg : KV.get s.reqs id with
        | none => rfl
        | some x => rw [hg] at hid; exact absurd rfl hid
      split
      · exact h
      · have hn : clientIP r ∉ s.conns := by
          intro hk
          obtain ⟨x, hx, e⟩ := mem_clients.1 ((h.mem _).1 hk)
          exact ho id r rfl x hx e
        have hd : KV.del s.reqs id = s.reqs := KV.del_of_get_none hid
        refine ⟨KV.distinct_set h.ids _ _, ?_, ?_, fun k => ?_⟩
        · show (clientIP r :: (KV.del s.reqs id).map (fun x => clientIP x.2.1)).Nodup
          rw [hd]
          exact List.nodup_cons.2 ⟨fun hk => hn ((h.mem _).2 hk), h.clients⟩
        · show (addConn s.conns (clientIP r)).Nodup
          unfold addConn
          rw [if_neg hn]
          exact List.nodup_cons.2 ⟨hn, h.conns⟩
        · show k ∈ addConn s.conns (clientIP r) ↔ k ∈ clientIP r :: (KV.del s.reqs id).map (fun x => clientIP x.2.1)
          unfold addConn
          rw [if_neg hn, hd, List.mem_cons, List.mem_cons, h.mem]
  | advance id now avg =>
    show Fair (advance c s id now avg).1
    have hcount : ∀ (s' : S) (r : Request) (p : Phase), KV.get s.reqs id = some (r, p) → s'.conns = s.conns → s'.reqs = s.reqs →
        Fair (advance.count c id now s' r).1 := by
      intro s' r p hg h1 h2
      unfold advance.count
      split
      · exact fair_congr h h1 h2
      · split
        · exact fair_close (fair_congr h h1 h2) (by rw [h2]; exact hg)
        · exact fair_set h hg h1 (by show KV.set s'.reqs id _ = _; rw [h2])
    unfold advance
    split
    · exact h
    · rename_i hg
      split
      · exact fair_close h hg
      · exact fair_set h hg rfl rfl
    · rename_i hg
      split
      · split
        · exact h
        · exact fair_close (s := reset s) (fair_congr h rfl rfl) hg
      · split
        · exact fair_congr h rfl rfl
        · split
          · exact fair_set h hg rfl rfl
          · exact hcount s _ _ hg rfl rfl
    · rename_i hg
      exact hcount _ _ _ hg rfl rfl
    · rename_i hg
      split
      · exact fair_set h hg rfl rfl
      · exact fair_close h hg
    · exact h
  | finish id now dur =>
    show Fair (finish s id now dur).1
    unfold finish
    split
    · rename_i r hg
      exact fair_close (s := { s with comp := KV.set s.comp (clientIP r) ((KV.get s.comp (clientIP r)).getD [] ++ [(now, dur)]) })
        (fair_congr h rfl rfl) hg
    · exact h
  | timeout id =>
    show Fair (timeout s id).1
    unfold timeout
    split
    · rename_i hg
      exact fair_close h hg
    · exact h

/-! ## Methods -/

/-- No limiter of a method is being inserted, and open calls have methods with limiters. -/
structure Known (s : S) : Prop where
  alive : s.crashed = false
  calm : ∀ x ∈ s.reqs, x.2.2 ≠ .inserting
  has : ∀ x ∈ s.reqs, x.2.1.ask ≠ .reset → KV.get s.methods (methodOf x.2.1) ≠ none

theorem known_step {c : Conf} {s : S} (h : Known s) (op : Op)
    (ho : ∀ id r, op = .arrive id r → r.ask ≠ .reset → KV.get s.methods (methodOf r) ≠ none) :
    Known (step c s op).1 ∧ ∀ m, KV.get s.methods m ≠ none → KV.get (step c s op).1.methods m ≠ none := by
  have hany : (s.reqs.any (fun x => decide (x.2.2 = .inserting))) = false := by
    rw [List.any_eq_false]
    intro x hx e
    exact h.calm x hx (of_decide_eq_true e)
  have hclose : ∀ (s' : S) id r, s'.crashed = s.crashed → s'.reqs = s.reqs → (∀ m, KV.get s.methods m ≠ none → KV.get s'.methods m ≠ none) →
      Known (close s' id r) ∧ ∀ m, KV.get s.methods m ≠ none → KV.get (close s' id r).methods m ≠ none := by
    intro s' id r h1 h2 h3
    refine ⟨⟨by show s'.crashed = false; rw [h1]; exact h.alive, fun x hx => ?_, fun x hx hr => ?_⟩, h3⟩
    · have hx : x ∈ KV.del s'.reqs id := hx
      rw [h2] at hx
      exact h.calm x (KV.mem_del.1 hx).1
    · have hx : x ∈ KV.del s'.reqs id := hx
      rw [h2] at hx
      exact h3 _ (h.has x (KV.mem_del.1 hx).1 hr)
  have hset : ∀ (s' : S) id r p p', KV.get s.reqs id = some (r, p) → p' ≠ .inserting → s'.crashed = s.crashed →
      s'.reqs = KV.set s.reqs id (r, p') → (∀ m, KV.get s.methods m ≠ none → KV.get s'.methods m ≠ none) →
      Known s' ∧ ∀ m, KV.get s.methods m ≠ none → KV.get s'.methods m ≠ none := by
    intro s' id r p p' hg hp h1 h2 h3
    refine ⟨⟨by rw [h1]; exact h.alive, fun x hx => ?_, fun x hx hr => ?_⟩, h3⟩
    · rw [h2] at hx
      rcases List.mem_cons.1 hx with e | e
      · rw [e]; exact hp
      · exact h.calm x (KV.mem_del.1 e).1
    · rw [h2] at hx
      rcases List.mem_cons.1 hx with e | e
      · rw [e] at hr ⊢
        exact h3 _ (h.has (id, (r, p)) (KV.mem_of_get hg) hr)
      · exact h3 _ (h.has x (KV.mem_del.1 e).1 hr)
  have hcount : ∀ id now r p, KV.get s.reqs id = some (r, p) →
      Known (advance.count c id now s r).1 ∧ ∀ m, KV.get s.methods m ≠ none → KV.get (advance.count c id now s r).1.methods m ≠ none := by
    intro id now r p hg
    unfold advance.count
    split
    · exact ⟨h, fun _ hm => hm⟩
    · split
      · exact hclose s id r rfl rfl (fun _ hm => hm)
      · refine hset _ id r p .counted hg (fun h => nomatch h) rfl rfl (fun m hm => ?_)
        show KV.get (KV.set s.methods _ _) m ≠ none
        rw [KV.get_set]
        split
        · exact fun h => nomatch h
        · exact hm
  unfold step
  rw [if_neg (by rw [h.alive]; exact Bool.false_ne_true)]
  cases op with
  | arrive id r =>
    show Known (arrive c s id r).1 ∧ ∀ m, KV.get s.methods m ≠ none → KV.get (arrive c s id r).1.methods m ≠ none
    unfold arrive
    split
    · exact ⟨h, fun _ hm => hm⟩
    · split
      · exact ⟨h, fun _ hm => hm⟩
      · refine ⟨⟨h.alive, fun x hx => ?_, fun x hx hr => ?_⟩, fun _ hm => hm⟩
        · rcases List.mem_cons.1 hx with e | e
          · rw [e]; exact fun h => nomatch h
          · exact h.calm x (KV.mem_del.1 e).1
        · rcases List.mem_cons.1 hx with e | e
          · rw [e] at hr ⊢; exact ho id r rfl hr
          · exact h.has x (KV.mem_del.1 e).1 hr
  | advance id now avg =>
    show Known (advance c s id now avg).1 ∧ ∀ m, KV.get s.methods m ≠ none → KV.get (advance c s id now avg).1.methods m ≠ none
    unfold advance
    split
    · exact ⟨h, fun _ hm => hm⟩
    · rename_i r hg
      split
      · exact hclose s id r rfl rfl (fun _ hm => hm)
      · exact hset _ id r _ .rated hg (fun h => nomatch h) rfl rfl (fun _ hm => hm)
    · rename_i r hg
      rw [hany]
      split
      · refine hclose (reset s) id r rfl rfl (fun m hm => ?_)
        show KV.get (s.methods.map (fun x => (x.1, (x.2.1, ([] : Table))))) m ≠ none
        intro e
        rw [KV.get_eq_none] at e
        refine hm (KV.get_eq_none.2 fun x hx => ?_)
        exact e (x.1, (x.2.1, [])) (List.mem_map.2 ⟨x, hx, rfl⟩)
      · rename_i hr
        rw [if_neg Bool.false_ne_true]
        split
        · rename_i hm
          exact absurd (Option.isNone_iff_eq_none.1 hm) (h.has _ (KV.mem_of_get hg) hr)
        · exact hcount id now r _ hg
    · rename_i r hg
      exact absurd rfl (h.calm _ (KV.mem_of_get hg))
    · rename_i r hg
      split
      · exact hset _ id r _ .working hg (fun h => nomatch h) rfl rfl (fun _ hm => hm)
      · exact hclose s id r rfl rfl (fun _ hm => hm)
    · exact ⟨h, fun _ hm => hm⟩
  | finish id now dur =>
    show Known (finish s id now dur).1 ∧ ∀ m, KV.get s.methods m ≠ none → KV.get (finish s id now dur).1.methods m ≠ none
    unfold finish
    split
    · exact hclose _ id _ rfl rfl (fun _ hm => hm)
    · exact ⟨h, fun _ hm => hm⟩
  | timeout id =>
    show Known (timeout s id).1 ∧ ∀ m, KV.get s.methods m ≠ none → KV.get (timeout s id).1.methods m ≠ none
    unfold timeout
    split
    · exact hclose s id _ rfl rfl (fun _ hm => hm)
    · exact ⟨h, fun _ hm => hm⟩

/-! ## Texts -/

theorem contains_append (a b u : Text) : contains (a ++ u ++ b) u = true := by
  induction a with
  | nil =>
    have : u.isPrefixOf (u ++ b) = true := List.isPrefixOf_iff_prefix.2 (List.prefix_append _ _)
    show contains (u ++ b) u = true
    unfold contains
    split
    · rename_i h; rw [h] at this; exact this
    · rename_i h; rw [h] at this; rw [this]; rfl
  | cons x a ih =>
    show contains (x :: (a ++ u ++ b)) u = true
    unfold contains
    rw [ih, Bool.or_true]

theorem contains_iff (t u : Text) : contains t u = true ↔ Has t u := by
  refine ⟨fun h => ?_, fun ⟨a, b, e⟩ => by rw [e]; exact contains_append a b u⟩
  induction t with
  | nil =>
    obtain ⟨b, e⟩ := List.isPrefixOf_iff_prefix.1 h
    exact ⟨[], b, e.symm⟩
  | cons x t ih =>
    unfold contains at h
    rcases Bool.or_eq_true_iff.1 h with h | h
    · obtain ⟨b, e⟩ := List.isPrefixOf_iff_prefix.1 h
      exact ⟨[], b, e.symm⟩
    · obtain ⟨a, b, e⟩ := ih h
      exact ⟨x :: a, b, by rw [e]; rfl⟩

theorem spent_eq (window t : Nat) (l : List (Nat × Nat)) : spent window t l = (l.map (fun e => if t < e.1 + window then e.2 else 0)).sum := by
  unfold spent
  induction l with
  | nil => rfl
  | cons x l ih =>
    rw [List.filter_cons, List.map_cons, List.sum_cons]
    by_cases h : t < x.1 + window
    · rw [if_pos (decide_eq_true h), if_pos h, List.map_cons, List.sum_cons, ih]
    · rw [if_neg (fun e => h (of_decide_eq_true e)), if_neg h, ih, Nat.zero_add]

/-- Some text is not a key of a table. -/
theorem fresh_text {α : Type} (m : List (Text × α)) : ∃ k : Text, k ≠ [] ∧ KV.get m k = none := by
  have : ∃ n : Nat, ∀ x ∈ m, x.1.length < n := by
    induction m with
    | nil => exact ⟨0, fun x hx => nomatch hx⟩
    | cons y m ih =>
      obtain ⟨n, hn⟩ := ih
      refine ⟨max n (y.1.length + 1), fun x hx => ?_⟩
      rcases List.mem_cons.1 hx with e | e
      · rw [e]; omega
      · have := hn x e; omega
  obtain ⟨n, hn⟩ := this
  refine ⟨List.replicate (n + 1) 0, fun h => (nomatch h), KV.get_eq_none.2 fun x hx e => ?_⟩
  have := hn x hx
  rw [e, List.length_replicate] at this
  omega

end Rpc.Limits
