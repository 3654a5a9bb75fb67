import Verif.Rpc.CacheSpec
import Verif.Hyperion.ClaimsLemmas
/-! Lemmas for the cache of answers. -/
namespace Rpc.Cache

theorem run_snoc (c : Conf) (ops : List Op) (op : Op) :
    run c (ops ++ [op]) = ((step c (run c ops).1 op).1, (step c (run c ops).1 op).2 ++ (run c ops).2) := by
  unfold run
  rw [List.foldl_append]
  rfl

/-- Induction over schedules from the end. -/
theorem snoc_induction {P : List Op → Prop} (h0 : P []) (h1 : ∀ ops op, P ops → P (ops ++ [op])) : ∀ ops, P ops := by
  intro ops
  have : ∀ l : List Op, P l.reverse := by
    intro l
    induction l with
    | nil => exact h0
    | cons x l ih => rw [List.reverse_cons]; exact h1 _ _ ih
  have h := this ops.reverse
  rw [List.reverse_reverse] at h
  exact h

theorem clocked_snoc {ops : List Op} {op : Op} (h : Clocked (ops ++ [op])) :
    Clocked ops ∧ ∀ t, opTime op = some t → ∀ x ∈ ops.filterMap opTime, x ≤ t := by
  unfold Clocked at h ⊢
  rw [List.filterMap_append, List.pairwise_append] at h
  refine ⟨h.1, fun t ht x hx => h.2.2 x hx t ?_⟩
  rw [List.filterMap_cons, ht]
  exact List.mem_cons_self

theorem bound_exists (l : List Nat) : ∃ T, ∀ x ∈ l, x ≤ T := by
  induction l with
  | nil => exact ⟨0, fun x hx => nomatch hx⟩
  | cons y l ih =>
    obtain ⟨n, hn⟩ := ih
    refine ⟨max n y, fun x hx => ?_⟩
    rcases List.mem_cons.1 hx with e | e
    · omega
    · have := hn x e; omega

/-- Different things that are all in a list are no more than the list is long. -/
theorem nodup_length_le {α : Type} [DecidableEq α] : ∀ (a l : List α), a.Nodup → (∀ x ∈ a, x ∈ l) → a.length ≤ l.length
  | [], _, _, _ => Nat.zero_le _
  | x :: a, l, hn, h => by
    have hx : x ∈ l := h x List.mem_cons_self
    rw [List.nodup_cons] at hn
    have ih := nodup_length_le a (l.erase x) hn.2 fun y hy =>
      (List.mem_erase_of_ne (fun e => hn.1 (by rw [← e]; exact hy))).2 (h y (List.mem_cons_of_mem _ hy))
    rw [List.length_erase_of_mem hx] at ih
    have : 0 < l.length := List.length_pos_of_mem hx
    rw [List.length_cons]
    omega

/-! ## What events change -/

theorem others_cons (c : Conf) (k : Text) (e : Event) (evs : List Event) :
    others c k (e :: evs) = match used c e with
      | none => others c k evs
      | some j => if j = k then [] else j :: others c k evs := by
  unfold others
  cases h : used c e with
  | none => rw [List.filterMap_cons_none h]
  | some j =>
    rw [List.filterMap_cons_some h, List.takeWhile_cons]
    by_cases hj : j = k
    · simp [hj]
    · simp [hj]

theorem last_hit (k : Text) (id : Nat) (j : Text) (t v : Nat) (evs : List Event) : lastAnswer k (.hit id j t v :: evs) = lastAnswer k evs := rfl

theorem last_fail (k : Text) (id : Nat) (j : Text) (b t : Nat) (evs : List Event) : lastAnswer k (.fetched id j b t .fail :: evs) = lastAnswer k evs := rfl

theorem last_ok (k : Text) (id : Nat) (j : Text) (b t v : Nat) (evs : List Event) :
    lastAnswer k (.fetched id j b t (.ok v) :: evs) = if j = k then some (t, v) else lastAnswer k evs := rfl

theorem last_mem {k : Text} {evs : List Event} {t v : Nat} (h : lastAnswer k evs = some (t, v)) : ∃ id b, .fetched id k b t (.ok v) ∈ evs := by
  induction evs with
  | nil => cases h
  | cons e evs ih =>
    have hrec : lastAnswer k evs = some (t, v) → ∃ id b, .fetched id k b t (.ok v) ∈ e :: evs := fun h =>
      let ⟨id, b, hm⟩ := ih h
      ⟨id, b, List.mem_cons_of_mem _ hm⟩
    match e, h with
    | .hit _ _ _ _, h => exact hrec h
    | .fetched _ _ _ _ .fail, h => exact hrec h
    | .fetched id j b t' (.ok v'), h =>
      rw [last_ok] at h
      by_cases hj : j = k
      · rw [if_pos hj] at h
        cases h
        exact ⟨id, b, by rw [hj]; exact List.mem_cons_self⟩
      · rw [if_neg hj] at h
        exact hrec h

/-! ## The invariant -/

/-- The entry of `k` is there with only others used since in front of it, or it has expired, or too many others were used. -/
def Kept (c : Conf) (T : Nat) (lru : List (Text × (Nat × Nat))) (evs : List Event) (k : Text) (x : Nat) : Prop :=
  (∃ pre e post, lru = pre ++ (k, e) :: post ∧ ∀ y ∈ pre, y.1 ∈ others c k evs) ∨ x < T ∨ (∀ l : List Text, (∀ j ∈ others c k evs, j ∈ l) → c.cap ≤ l.length)

structure Inv (c : Conf) (T : Nat) (s : S) (evs : List Event) : Prop where
  size : s.lru.length ≤ c.cap
  dist : KV.Distinct s.lru
  entry : ∀ k v x, (k, (v, x)) ∈ s.lru → ∃ d t, c.ttl k = some d ∧ lastAnswer k evs = some (t, v) ∧ x = t + d
  time : ∀ id k b t r, .fetched id k b t r ∈ evs → b ≤ t ∧ t ≤ T
  work : ∀ x ∈ s.work, x.2.2 ≤ T
  hits : ∀ id k t v, .hit id k t v ∈ evs → ∃ id' b e d, .fetched id' k b e (.ok v) ∈ evs ∧ c.ttl k = some d ∧ b ≤ e ∧ e ≤ t ∧ t ≤ e + d
  kept : ∀ k d t v, c.ttl k = some d → lastAnswer k evs = some (t, v) → Kept c T s.lru evs k (t + d)

theorem Inv.mono {c : Conf} {T T' : Nat} {s : S} {evs : List Event} (h : Inv c T s evs) (hT : T ≤ T') : Inv c T' s evs where
  size := h.size
  dist := h.dist
  entry := h.entry
  time := fun id k b t r hm => ⟨(h.time id k b t r hm).1, Nat.le_trans (h.time id k b t r hm).2 hT⟩
  work := fun x hx => Nat.le_trans (h.work x hx) hT
  hits := h.hits
  kept := fun k d t v hd hl => by
    rcases h.kept k d t v hd hl with a | a | a
    · exact Or.inl a
    · exact Or.inr (Or.inl (by omega))
    · exact Or.inr (Or.inr a)

theorem inv_init (c : Conf) : Inv c 0 init [] where
  size := Nat.zero_le _
  dist := .nil
  entry := fun _ _ _ h => nomatch h
  time := fun _ _ _ _ _ h => nomatch h
  work := fun _ h => nomatch h
  hits := fun _ _ _ _ h => nomatch h
  kept := fun _ _ _ _ _ h => nomatch h

theorem del_append {κ α : Type} [DecidableEq κ] (a b : List (κ × α)) (k : κ) : KV.del (a ++ b) k = KV.del a k ++ KV.del b k := List.filter_append ..

theorem del_cons_ne {κ α : Type} [DecidableEq κ] {e : κ × α} {k : κ} (h : e.1 ≠ k) (m : List (κ × α)) : KV.del (e :: m) k = e :: KV.del m k := by
  unfold KV.del
  rw [List.filter_cons, if_pos (decide_eq_true h)]

/-- Using another entry. -/
theorem kept_use {c : Conf} {T : Nat} {lru : List (Text × (Nat × Nat))} {evs : List Event} {k : Text} {x : Nat} (h : Kept c T lru evs k x)
    (hd : KV.Distinct lru) {e : Event} {j : Text} (hu : used c e = some j) (hj : j ≠ k) (y : Nat × Nat) :
    Kept c T ((KV.set lru j y).take c.cap) (e :: evs) k x := by
  have ho : others c k (e :: evs) = j :: others c k evs := by
    rw [others_cons, hu]
    exact if_neg hj
  rcases h with ⟨pre, ek, post, hl, hp⟩ | h | h
  · have hset : KV.set lru j y = ((j, y) :: KV.del pre j) ++ (k, ek) :: KV.del post j := by
      unfold KV.set
      rw [hl, del_append, del_cons_ne (e := (k, ek)) (fun e => hj e.symm)]
      rfl
    have hpre : ∀ z ∈ (j, y) :: KV.del pre j, z.1 ∈ others c k (e :: evs) := by
      intro z hz
      rw [ho]
      rcases List.mem_cons.1 hz with e | e
      · rw [e]; exact List.mem_cons_self
      · exact List.mem_cons_of_mem _ (hp z (KV.mem_del.1 e).1)
    by_cases hc : ((j, y) :: KV.del pre j).length < c.cap
    · refine Or.inl ⟨(j, y) :: KV.del pre j, ek, (KV.del post j).take (c.cap - ((j, y) :: KV.del pre j).length - 1), ?_, hpre⟩
      rw [hset, List.take_append, List.take_of_length_le (Nat.le_of_lt hc)]
      congr 1
      obtain ⟨n, hn⟩ : ∃ n, c.cap - ((j, y) :: KV.del pre j).length = n + 1 := ⟨c.cap - ((j, y) :: KV.del pre j).length - 1, by omega⟩
      rw [hn]
      rfl
    · refine Or.inr (Or.inr fun l hl' => ?_)
      have hnd : (((j, y) :: KV.del pre j).map (·.1)).Nodup := by
        have := KV.distinct_set hd j y
        unfold KV.Distinct at this
        rw [hset, List.map_append] at this
        exact (List.nodup_append.1 this).1
      have := nodup_length_le _ l hnd fun z hz => by
        obtain ⟨w, hw, e⟩ := List.mem_map.1 hz
        rw [← e]
        exact hl' _ (hpre w hw)
      rw [List.length_map] at this
      omega
  · exact Or.inr (Or.inl h)
  · refine Or.inr (Or.inr fun l hl => h l fun z hz => hl z ?_)
    rw [ho]
    exact List.mem_cons_of_mem _ hz

/-- Leaving some entries out, but not this one unless it has expired. -/
theorem kept_filter {c : Conf} {T : Nat} {lru : List (Text × (Nat × Nat))} {evs : List Event} {k : Text} {x : Nat} (h : Kept c T lru evs k x)
    (p : Text × (Nat × Nat) → Bool) (hp : ∀ e, (k, e) ∈ lru → p (k, e) = false → x < T) : Kept c T (lru.filter p) evs k x := by
  rcases h with ⟨pre, ek, post, hl, hq⟩ | h | h
  · cases hk : p (k, ek) with
    | false => exact Or.inr (Or.inl (hp ek (by rw [hl]; exact List.mem_append_right _ List.mem_cons_self) hk))
    | true =>
      refine Or.inl ⟨pre.filter p, ek, post.filter p, ?_, fun y hy => hq y (List.mem_filter.1 hy).1⟩
      rw [hl, List.filter_append, List.filter_cons, if_pos hk]
  · exact Or.inr (Or.inl h)
  · exact Or.inr (Or.inr h)

theorem inv_ask {c : Conf} {T : Nat} {s : S} {evs : List Event} (h : Inv c T s evs) (id : Nat) (k : Text) :
    Inv c T (ask c s id k T).1 ((ask c s id k T).2 ++ evs) := by
  have hw : ∀ x ∈ KV.set s.work id (k, T), x.2.2 ≤ T := by
    intro x hx
    rcases KV.mem_set.1 hx with e | e
    · rw [e]; exact Nat.le_refl _
    · exact h.work x e.1
  unfold ask
  split
  · exact h
  split
  · exact { h with work := hw }
  rename_i d hd
  split
  · exact { h with work := hw }
  rename_i v x hg
  obtain ⟨d', t, hd', hl, hx⟩ := h.entry k v x (KV.mem_of_get hg)
  rw [hd] at hd'
  cases hd'
  split
  · rename_i hT
    refine { h with size := Nat.le_trans (List.length_filter_le _ _) h.size, dist := KV.distinct_del h.dist k, work := hw, entry := ?_, kept := ?_ }
    · exact fun k' v' x' hm => h.entry k' v' x' (KV.mem_del.1 hm).1
    · intro k' d' t' v' hd' hl'
      refine kept_filter (h.kept k' d' t' v' hd' hl') _ fun e he hp => ?_
      have hk : k' = k := by
        simpa using hp
      subst hk
      rw [hd] at hd'
      cases hd'
      have hl' : lastAnswer k' evs = some (t', v') := hl'
      rw [hl] at hl'
      cases hl'
      omega
  · rename_i hT
    have hlen : (KV.set s.lru k (v, x)).length = s.lru.length := (KV.perm_of_get h.dist hg).symm.length_eq
    have hu : used c (.hit id k T v) = some k := rfl
    refine ⟨by show (KV.set s.lru k (v, x)).length ≤ c.cap; rw [hlen]; exact h.size, KV.distinct_set h.dist _ _, ?_, ?_, h.work, ?_, ?_⟩
    · intro k' v' x' hm
      rcases KV.mem_set.1 hm with e | e
      · cases e
        exact ⟨d, t, hd, hl, hx⟩
      · exact h.entry k' v' x' e.1
    · intro id' k' b t' r hm
      rcases List.mem_cons.1 hm with e | e
      · cases e
      · exact h.time id' k' b t' r e
    · intro id' k' t' v' hm
      rcases List.mem_cons.1 hm with e | e
      · cases e
        obtain ⟨i, b, hm'⟩ := last_mem hl
        have := h.time _ _ _ _ _ hm'
        exact ⟨i, b, t, d, List.mem_cons_of_mem _ hm', hd, this.1, this.2, by omega⟩
      · obtain ⟨i, b, e', d', h1, h2⟩ := h.hits id' k' t' v' e
        exact ⟨i, b, e', d', List.mem_cons_of_mem _ h1, h2⟩
    · intro k' d' t' v' hd' hl'
      by_cases hk : k = k'
      · subst hk
        exact Or.inl ⟨[], (v, x), KV.del s.lru k, rfl, fun y hy => nomatch hy⟩
      · have := kept_use (h.kept k' d' t' v' hd' hl') h.dist hu hk (v, x)
        rw [List.take_of_length_le (by rw [hlen]; exact h.size)] at this
        exact this

theorem inv_back {c : Conf} {T : Nat} {s : S} {evs : List Event} (h : Inv c T s evs) (id : Nat) (r : Res) :
    Inv c T (back c s id T r).1 ((back c s id T r).2 ++ evs) := by
  unfold back
  split
  · exact h
  rename_i k b hg
  have hb : b ≤ T := h.work _ (KV.mem_of_get hg)
  have hw : ∀ x ∈ KV.del s.work id, x.2.2 ≤ T := fun x hx => h.work x (KV.mem_del.1 hx).1
  have htime : ∀ id' k' b' t' r', .fetched id' k' b' t' r' ∈ Event.fetched id k b T r :: evs → b' ≤ t' ∧ t' ≤ T := by
    intro id' k' b' t' r' hm
    rcases List.mem_cons.1 hm with e | e
    · cases e
      exact ⟨hb, Nat.le_refl _⟩
    · exact h.time _ _ _ _ _ e
  have hhits : ∀ id' k' t' v', .hit id' k' t' v' ∈ Event.fetched id k b T r :: evs →
      ∃ i b' e d, .fetched i k' b' e (.ok v') ∈ Event.fetched id k b T r :: evs ∧ c.ttl k' = some d ∧ b' ≤ e ∧ e ≤ t' ∧ t' ≤ e + d := by
    intro id' k' t' v' hm
    rcases List.mem_cons.1 hm with e | e
    · cases e
    · obtain ⟨i, b', e', d', h1, h2⟩ := h.hits id' k' t' v' e
      exact ⟨i, b', e', d', List.mem_cons_of_mem _ h1, h2⟩
  have hrest : (∀ d v, c.ttl k = some d → r = .ok v → False) → Inv c T { s with work := KV.del s.work id } (.fetched id k b T r :: evs) := by
    intro hno
    have hother : ∀ k' d', c.ttl k' = some d' →
        lastAnswer k' (.fetched id k b T r :: evs) = lastAnswer k' evs ∧ others c k' (.fetched id k b T r :: evs) = others c k' evs := by
      intro k' d' hd'
      cases r with
      | fail => exact ⟨rfl, others_cons c k' _ evs⟩
      | ok v =>
        have hn : c.ttl k = none := by
          cases hk : c.ttl k with
          | none => rfl
          | some d => exact (hno d v hk rfl).elim
        refine ⟨?_, ?_⟩
        · rw [last_ok, if_neg]
          intro e
          rw [e, hd'] at hn
          cases hn
        · rw [others_cons]
          have : used c (.fetched id k b T (.ok v)) = none := by
            show (if (c.ttl k).isSome then some k else none) = none
            rw [hn]
            rfl
          rw [this]
    refine ⟨h.size, h.dist, ?_, htime, hw, hhits, ?_⟩
    · intro k' v' x' hm
      obtain ⟨d', t', h1, h2, h3⟩ := h.entry k' v' x' hm
      exact ⟨d', t', h1, (hother k' d' h1).1.trans h2, h3⟩
    · intro k' d' t' v' hd' hl'
      have hk := h.kept k' d' t' v' hd' ((hother k' d' hd').1.symm.trans hl')
      unfold Kept at hk ⊢
      rw [← (hother k' d' hd').2] at hk
      exact hk
  cases hd : c.ttl k with
  | none =>
    have := hrest (fun d v h => by rw [hd] at h; cases h)
    cases r <;> exact this
  | some d =>
    cases r with
    | fail => exact hrest (fun d v _ h => nomatch h)
    | ok v =>
      have hu : used c (.fetched id k b T (.ok v)) = some k := by
        show (if (c.ttl k).isSome then some k else none) = some k
        rw [hd]
        rfl
      refine ⟨?_, ?_, ?_, htime, hw, hhits, ?_⟩
      · show ((KV.set s.lru k (v, T + d)).take c.cap).length ≤ c.cap
        rw [List.length_take]
        exact Nat.min_le_left _ _
      · exact List.Nodup.sublist ((List.take_sublist _ _).map _) (KV.distinct_set h.dist k (v, T + d))
      · intro k' v' x' hm
        show ∃ d' t', c.ttl k' = some d' ∧ lastAnswer k' (.fetched id k b T (.ok v) :: evs) = some (t', v') ∧ x' = t' + d'
        rw [last_ok]
        rcases KV.mem_set.1 (List.mem_of_mem_take hm) with e | e
        · cases e
          exact ⟨d, T, hd, if_pos rfl, rfl⟩
        · rw [if_neg (fun h => e.2 h.symm)]
          exact h.entry k' v' x' e.1
      · intro k' d' t' v' hd' hl'
        have hl' : lastAnswer k' (.fetched id k b T (.ok v) :: evs) = some (t', v') := hl'
        rw [last_ok] at hl'
        by_cases hk : k = k'
        · subst hk
          rw [if_pos rfl] at hl'
          cases hl'
          by_cases hc : c.cap = 0
          · exact Or.inr (Or.inr fun l _ => by rw [hc]; exact Nat.zero_le _)
          · obtain ⟨n, hn⟩ := Nat.exists_eq_succ_of_ne_zero hc
            refine Or.inl ⟨[], (v, T + d), (KV.del s.lru k).take n, ?_, fun y hy => nomatch hy⟩
            show (KV.set s.lru k (v, T + d)).take c.cap = _
            rw [hn]
            rfl
        · rw [if_neg hk] at hl'
          exact kept_use (h.kept k' d' t' v' hd' hl') h.dist hu hk _

theorem inv_clean {c : Conf} {T : Nat} {s : S} {evs : List Event} (h : Inv c T s evs) : Inv c T (clean s T) evs := by
  refine { h with size := Nat.le_trans (List.length_filter_le _ _) h.size, dist := ?_, entry := ?_, kept := ?_ }
  · exact List.Nodup.sublist (List.filter_sublist.map _) h.dist
  · exact fun k v x hm => h.entry k v x (List.mem_filter.1 hm).1
  · intro k d t v hd hl
    refine kept_filter (h.kept k d t v hd hl) _ fun e he hp => ?_
    obtain ⟨v', x'⟩ := e
    obtain ⟨d', t', h1, h2, h3⟩ := h.entry k v' x' he
    rw [hd] at h1
    cases h1
    rw [hl] at h2
    cases h2
    have : ¬ T ≤ x' := of_decide_eq_false hp
    omega

theorem inv_step {c : Conf} {T : Nat} {s : S} {evs : List Event} (h : Inv c T s evs) (op : Op) (ht : ∀ t, opTime op = some t → t = T) :
    Inv c T (step c s op).1 ((step c s op).2 ++ evs) := by
  cases op with
  | ask id k now => rw [ht now rfl]; exact inv_ask h id k
  | back id now r => rw [ht now rfl]; exact inv_back h id r
  | clean now => rw [ht now rfl]; exact inv_clean h
  | routine => exact { h with }

theorem inv_run (c : Conf) (ops : List Op) : Clocked ops → ∀ T, (∀ x ∈ ops.filterMap opTime, x ≤ T) → Inv c T (run c ops).1 (run c ops).2 := by
  induction ops using snoc_induction with
  | h0 => exact fun _ T _ => (inv_init c).mono (Nat.zero_le _)
  | h1 ops op ih =>
    intro hc T hT
    obtain ⟨h1, h2⟩ := clocked_snoc hc
    rw [run_snoc]
    rw [List.filterMap_append] at hT
    cases ho : opTime op with
    | none => exact inv_step (ih h1 T (fun x hx => hT x (List.mem_append_left _ hx))) op (fun t ht => by rw [ho] at ht; cases ht)
    | some t =>
      have h3 := inv_step (ih h1 t (h2 t ho)) op (fun t' ht => by rw [ho] at ht; cases ht; rfl)
      refine h3.mono (hT t (List.mem_append_right _ ?_))
      rw [List.filterMap_cons, ho]
      exact List.mem_cons_self

/-! ## One at a time -/

/-- At most one piece of work on `k`, begun after all before were done; no answer falls behind what the method said before. -/
structure Orderly (R : Nat → Nat → Prop) (k : Text) (s : S) (evs : List Event) : Prop where
  single : ∀ x ∈ s.work, ∀ y ∈ s.work, x.2.1 = k → y.2.1 = k → x.1 = y.1
  after : ∀ x ∈ s.work, x.2.1 = k → ∀ id b t r, .fetched id k b t r ∈ evs → t ≤ x.2.2
  ids : KV.Distinct s.work
  top : ∀ t v, lastAnswer k evs = some (t, v) → ∀ a ∈ answers k evs, R a v
  some : ∀ a ∈ answers k evs, ∃ id b t, .fetched id k b t (.ok a) ∈ evs
  sorted : (answers k evs).Pairwise (fun later earlier => R earlier later)

theorem orderly_step {c : Conf} {R : Nat → Nat → Prop} {k : Text} {T : Nat} {s : S} {evs : List Event} (hi : Inv c T s evs) (h : Orderly R k s evs)
    (hr : ∀ a, R a a) (op : Op) (ht : ∀ t, opTime op = Option.some t → t = T) (ha : ∀ id now, op = .ask id k now → ∀ x ∈ s.work, x.2.1 ≠ k)
    (hg : Grows R k ((step c s op).2 ++ evs)) : Orderly R k (step c s op).1 ((step c s op).2 ++ evs) := by
  cases op with
  | ask id j now =>
    cases ht now rfl
    have hset : Orderly R k { s with work := KV.set s.work id (j, T) } evs := by
      refine ⟨?_, ?_, KV.distinct_set h.ids _ _, h.top, h.some, h.sorted⟩
      · intro x hx y hy ex ey
        rcases KV.mem_set.1 hx with e | e <;> rcases KV.mem_set.1 hy with e' | e'
        · rw [e, e']
        · rw [e] at ex
          cases ex
          exact absurd ey (ha id T rfl y e'.1)
        · rw [e'] at ey
          cases ey
          exact absurd ex (ha id T rfl x e.1)
        · exact h.single x e.1 y e'.1 ex ey
      · intro x hx ex id' b t r hm
        rcases KV.mem_set.1 hx with e | e
        · rw [e]
          exact (hi.time _ _ _ _ _ hm).2
        · exact h.after x e.1 ex id' b t r hm
    show Orderly R k (ask c s id j T).1 ((ask c s id j T).2 ++ evs)
    unfold ask
    split
    · exact h
    split
    · exact hset
    rename_i d hd
    split
    · exact hset
    rename_i v x hx
    split
    · exact { hset with }
    obtain ⟨d', t, hd', hl, _⟩ := hi.entry j v x (KV.mem_of_get hx)
    by_cases hj : j = k
    · subst hj
      have e : answers j (.hit id j T v :: evs) = v :: answers j evs := List.filterMap_cons_some (f := answerTo j) (if_pos rfl)
      obtain ⟨i, b, hm⟩ := last_mem hl
      refine ⟨h.single, ?_, h.ids, ?_, ?_, ?_⟩
      · intro x hx ex id' b' t' r hm
        rcases List.mem_cons.1 hm with e | e
        · cases e
        · exact h.after x hx ex id' b' t' r e
      · intro t' v' hl' a hma
        have hl' : lastAnswer j evs = some (t', v') := hl'
        rw [hl] at hl'
        cases hl'
        have hma : a ∈ answers j (.hit id j T v :: evs) := hma
        rw [e] at hma
        rcases List.mem_cons.1 hma with e | e
        · rw [e]; exact hr v
        · exact h.top t v hl a e
      · intro a hma
        have hma : a ∈ answers j (.hit id j T v :: evs) := hma
        rw [e] at hma
        rcases List.mem_cons.1 hma with e | e
        · rw [e]; exact ⟨i, b, t, List.mem_cons_of_mem _ hm⟩
        · obtain ⟨i', b', t', h'⟩ := h.some a e
          exact ⟨i', b', t', List.mem_cons_of_mem _ h'⟩
      · show (answers j (.hit id j T v :: evs)).Pairwise _
        rw [e, List.pairwise_cons]
        exact ⟨fun a ha' => h.top t v hl a ha', h.sorted⟩
    · have e : answers k (.hit id j T v :: evs) = answers k evs := List.filterMap_cons_none (f := answerTo k) (if_neg hj)
      refine ⟨h.single, ?_, h.ids, ?_, ?_, ?_⟩
      · intro x hx ex id' b' t' r hm
        rcases List.mem_cons.1 hm with e | e
        · cases e
        · exact h.after x hx ex id' b' t' r e
      · intro t' v' hl' a hma
        have hma : a ∈ answers k (.hit id j T v :: evs) := hma
        rw [e] at hma
        exact h.top t' v' hl' a hma
      · intro a hma
        have hma : a ∈ answers k (.hit id j T v :: evs) := hma
        rw [e] at hma
        obtain ⟨i', b', t', h'⟩ := h.some a hma
        exact ⟨i', b', t', List.mem_cons_of_mem _ h'⟩
      · show (answers k (.hit id j T v :: evs)).Pairwise _
        rw [e]
        exact h.sorted
  | back id now r =>
    cases ht now rfl
    have hg : Grows R k ((back c s id T r).2 ++ evs) := hg
    show Orderly R k (back c s id T r).1 ((back c s id T r).2 ++ evs)
    cases hw : KV.get s.work id with
    | none =>
      unfold back
      rw [hw]
      exact h
    | some x =>
      obtain ⟨j, b⟩ := x
      have hx : (id, (j, b)) ∈ s.work := KV.mem_of_get hw
      have e2 : (back c s id T r).2 = [.fetched id j b T r] := by
        unfold back
        rw [hw]
        dsimp only
        split <;> rfl
      have e1 : (back c s id T r).1.work = KV.del s.work id := by
        unfold back
        rw [hw]
        dsimp only
        split <;> rfl
      rw [e2] at hg ⊢
      have hafter : ∀ x ∈ KV.del s.work id, x.2.1 = k → ∀ id' b' t r', .fetched id' k b' t r' ∈ [Event.fetched id j b T r] ++ evs → t ≤ x.2.2 := by
        intro x hxm ex id' b' t r' hm
        obtain ⟨hxm, hne⟩ := KV.mem_del.1 hxm
        rcases List.mem_cons.1 hm with e | e
        · cases e
          exact absurd (h.single x hxm _ hx ex rfl) hne
        · exact h.after x hxm ex id' b' t r' e
      have hsingle : ∀ x ∈ KV.del s.work id, ∀ y ∈ KV.del s.work id, x.2.1 = k → y.2.1 = k → x.1 = y.1 :=
        fun x hx y hy => h.single x (KV.mem_del.1 hx).1 y (KV.mem_del.1 hy).1
      have hsame : answers k (.fetched id j b T r :: evs) = answers k evs → lastAnswer k (.fetched id j b T r :: evs) = lastAnswer k evs →
          Orderly R k (back c s id T r).1 ([.fetched id j b T r] ++ evs) := by
        intro ea el
        refine ⟨by rw [e1]; exact hsingle, by rw [e1]; exact hafter, by rw [e1]; exact KV.distinct_del h.ids id, ?_, ?_, ?_⟩
        · intro t v hl a hma
          exact h.top t v (el.symm.trans hl) a (by rw [← ea]; exact hma)
        · intro a hma
          obtain ⟨i', b', t', h'⟩ := h.some a (by rw [← ea]; exact hma)
          exact ⟨i', b', t', List.mem_cons_of_mem _ h'⟩
        · show (answers k (.fetched id j b T r :: evs)).Pairwise _
          rw [ea]
          exact h.sorted
      cases r with
      | fail => exact hsame rfl rfl
      | ok v =>
        by_cases hj : j = k
        · subst hj
          have ea : answers j (.fetched id j b T (.ok v) :: evs) = v :: answers j evs := List.filterMap_cons_some (f := answerTo j) (if_pos rfl)
          have hle : ∀ a ∈ answers j evs, R a v := by
            intro a hma
            obtain ⟨i', b', t', h'⟩ := h.some a hma
            exact hg i' b' t' a id b T v (List.mem_cons_of_mem _ h') List.mem_cons_self (h.after _ hx rfl _ _ _ _ h')
          refine ⟨by rw [e1]; exact hsingle, by rw [e1]; exact hafter, by rw [e1]; exact KV.distinct_del h.ids id, ?_, ?_, ?_⟩
          · intro t v' hl a hma
            have hl : lastAnswer j (.fetched id j b T (.ok v) :: evs) = some (t, v') := hl
            rw [last_ok, if_pos rfl] at hl
            cases hl
            have hma : a ∈ answers j (.fetched id j b T (.ok v) :: evs) := hma
            rw [ea] at hma
            rcases List.mem_cons.1 hma with e | e
            · rw [e]; exact hr v
            · exact hle a e
          · intro a hma
            have hma : a ∈ answers j (.fetched id j b T (.ok v) :: evs) := hma
            rw [ea] at hma
            rcases List.mem_cons.1 hma with e | e
            · rw [e]; exact ⟨id, b, T, List.mem_cons_self⟩
            · obtain ⟨i', b', t', h'⟩ := h.some a e
              exact ⟨i', b', t', List.mem_cons_of_mem _ h'⟩
          · show (answers j (.fetched id j b T (.ok v) :: evs)).Pairwise _
            rw [ea, List.pairwise_cons]
            exact ⟨hle, h.sorted⟩
        · refine hsame ?_ ?_
          · exact List.filterMap_cons_none (f := answerTo k) (if_neg hj)
          · rw [last_ok, if_neg hj]
  | clean now => exact { h with }
  | routine => exact { h with }

/-! ## Texts -/

/-- Two texts over some characters, each followed by another character, are equal if the whole is. -/
theorem split_inj (P : UInt8 → Prop) : ∀ (l l' : Text) (c c' : UInt8) (r r' : Text), (∀ x ∈ l, P x) → (∀ x ∈ l', P x) → ¬ P c → ¬ P c' →
    l ++ c :: r = l' ++ c' :: r' → l = l' ∧ c :: r = c' :: r'
  | [], [], _, _, _, _, _, _, _, _, h => ⟨rfl, h⟩
  | [], x :: l', c, c', r, r', _, h2, h3, _, h => by
    cases h
    exact absurd (h2 _ List.mem_cons_self) h3
  | x :: l, [], c, c', r, r', h1, _, _, h4, h => by
    cases h
    exact absurd (h1 _ List.mem_cons_self) h4
  | x :: l, y :: l', c, c', r, r', h1, h2, h3, h4, h => by
    injection h with e h
    obtain ⟨e1, e2⟩ := split_inj P l l' c c' r r' (fun x hx => h1 x (List.mem_cons_of_mem _ hx)) (fun x hx => h2 x (List.mem_cons_of_mem _ hx)) h3 h4 h
    exact ⟨by rw [e, e1], e2⟩

def unhexDigit (c : UInt8) : Nat := if c.toNat < 58 then c.toNat - 48 else c.toNat - 87

theorem hexDigit_facts : ∀ n : Fin 16, unhexDigit (hexDigit n.val) = n.val ∧ hexDigit n.val ≠ 34 := by decide +kernel

theorem unhex_hexDigit {n : Nat} (h : n < 16) : unhexDigit (hexDigit n) = n := (hexDigit_facts ⟨n, h⟩).1

theorem hexDigit_ne {n : Nat} (h : n < 16) : hexDigit n ≠ 34 := (hexDigit_facts ⟨n, h⟩).2

def unhex (t : Text) : Nat := t.foldl (fun a c => 16 * a + unhexDigit c) 0

theorem unhex_hexAux (f : Nat) : ∀ n, n < f → unhex (hexAux f n) = n := by
  induction f with
  | zero => exact fun n h => absurd h (Nat.not_lt_zero _)
  | succ f ih =>
    intro n h
    unfold hexAux
    split
    · rename_i hn
      show 16 * 0 + unhexDigit (hexDigit n) = n
      rw [unhex_hexDigit hn]
      omega
    · rename_i hn
      unfold unhex at ih ⊢
      rw [List.foldl_append, ih (n / 16) (by omega)]
      show 16 * (n / 16) + unhexDigit (hexDigit (n % 16)) = n
      rw [unhex_hexDigit (Nat.mod_lt _ (by decide))]
      omega

theorem hexText_inj {m n : Nat} (h : hexText m = hexText n) : m = n := by
  have := congrArg unhex h
  unfold hexText at this
  rw [unhex_hexAux _ m (by omega), unhex_hexAux _ n (by omega)] at this
  exact this

theorem hexAux_ne (f : Nat) : ∀ n, ∀ x ∈ hexAux f n, x ≠ 34 := by
  induction f with
  | zero => exact fun n x hx => nomatch hx
  | succ f ih =>
    intro n x hx
    unfold hexAux at hx
    split at hx
    · rename_i hn
      rw [List.mem_singleton.1 hx]
      exact hexDigit_ne hn
    · rcases List.mem_append.1 hx with e | e
      · exact ih _ x e
      · rw [List.mem_singleton.1 e]
        exact hexDigit_ne (Nat.mod_lt _ (by decide))

theorem byteText_inj {a b : UInt8} (h : byteText a = byteText b) : a = b := by
  unfold byteText at h
  injection h with h1 h2
  injection h2 with h2 _
  have ha := a.toNat_lt
  have hb := b.toNat_lt
  have e1 := congrArg unhexDigit h1
  have e2 := congrArg unhexDigit h2
  rw [unhex_hexDigit (by omega), unhex_hexDigit (by omega)] at e1 e2
  apply UInt8.toNat_inj.1
  omega

theorem bytes_inj : ∀ (a b : List UInt8), a.flatMap byteText = b.flatMap byteText → a = b
  | [], [], _ => rfl
  | [], y :: b, h => by cases h
  | x :: a, [], h => by cases h
  | x :: a, y :: b, h => by
    rw [List.flatMap_cons, List.flatMap_cons] at h
    obtain ⟨h1, h2⟩ := List.append_inj h rfl
    rw [byteText_inj h1, bytes_inj a b h2]

theorem bytes_ne (a : List UInt8) : ∀ x ∈ a.flatMap byteText, x ≠ 34 := by
  intro x hx
  obtain ⟨b, _, hb⟩ := List.mem_flatMap.1 hx
  have := b.toNat_lt
  unfold byteText at hb
  rcases List.mem_cons.1 hb with e | e
  · rw [e]; exact hexDigit_ne (by omega)
  · rw [List.mem_singleton.1 e]; exact hexDigit_ne (by omega)

theorem esc_prefix : ∀ a b : Fin 256, (esc (UInt8.ofNat a.val)).isPrefixOf (esc (UInt8.ofNat b.val)) = true → a = b := by decide +kernel

theorem esc_head : ∀ a : Fin 256, (esc (UInt8.ofNat a.val)).head? ≠ some 34 ∧ esc (UInt8.ofNat a.val) ≠ [] := by decide +kernel

theorem byte_fin (a : UInt8) : ∃ i : Fin 256, a = UInt8.ofNat i.val := ⟨⟨a.toNat, a.toNat_lt⟩, by simp⟩

theorem esc_inj {a b : UInt8} {x y : Text} (h : esc a ++ x = esc b ++ y) : a = b ∧ x = y := by
  obtain ⟨i, hi⟩ := byte_fin a
  obtain ⟨j, hj⟩ := byte_fin b
  have key : a = b := by
    rcases List.append_eq_append_iff.1 h with ⟨u, e, _⟩ | ⟨u, e, _⟩
    · have := esc_prefix i j (by rw [← hi, ← hj]; exact List.isPrefixOf_iff_prefix.2 ⟨u, e.symm⟩)
      rw [hi, hj, this]
    · have := esc_prefix j i (by rw [← hi, ← hj]; exact List.isPrefixOf_iff_prefix.2 ⟨u, e.symm⟩)
      rw [hi, hj, this]
  subst key
  exact ⟨rfl, List.append_cancel_left h⟩

theorem esc_not_quote {a : UInt8} {x y : Text} (h : esc a ++ x = 34 :: y) : False := by
  obtain ⟨i, hi⟩ := byte_fin a
  obtain ⟨h1, h2⟩ := esc_head i
  rw [← hi] at h1 h2
  cases he : esc a with
  | nil => exact h2 he
  | cons z l =>
    rw [he] at h h1
    cases h
    exact h1 rfl

theorem text_inj : ∀ (t t' x y : Text), t.flatMap esc ++ 34 :: x = t'.flatMap esc ++ 34 :: y → t = t' ∧ x = y
  | [], [], x, y, h => by cases h; exact ⟨rfl, rfl⟩
  | [], b :: t', x, y, h => by
    rw [List.flatMap_cons, List.append_assoc] at h
    exact (esc_not_quote h.symm).elim
  | a :: t, [], x, y, h => by
    rw [List.flatMap_cons, List.append_assoc] at h
    exact (esc_not_quote h).elim
  | a :: t, b :: t', x, y, h => by
    rw [List.flatMap_cons, List.flatMap_cons, List.append_assoc, List.append_assoc] at h
    obtain ⟨e, h⟩ := esc_inj h
    obtain ⟨e', h⟩ := text_inj t t' x y h
    exact ⟨by rw [e, e'], h⟩

theorem quoted_append (t x : Text) : quoted t ++ x = 34 :: (t ++ 34 :: x) := by
  unfold quoted
  simp

/-- An argument followed by a comma or a bracket can be read back. -/
theorem argText_inj (κ : Kind) (a b : Arg) (ha : IsKind κ a) (hb : IsKind κ b) (c d : UInt8) (x y : Text) (hc : c = 44 ∨ c = 93) (hd : d = 44 ∨ d = 93)
    (h : argText a ++ c :: x = argText b ++ d :: y) : a = b ∧ c :: x = d :: y := by
  match κ, a, b, ha, hb with
  | .hex, .hex m, .hex n, _, _ =>
    have h : quoted (48 :: 120 :: hexText m) ++ c :: x = quoted (48 :: 120 :: hexText n) ++ d :: y := h
    rw [quoted_append, quoted_append] at h
    injection h with _ h
    injection h with _ h
    injection h with _ h
    obtain ⟨e, h⟩ := split_inj (fun z => z ≠ 34) _ _ _ _ _ _ (hexAux_ne _ m) (hexAux_ne _ n) (fun h => h rfl) (fun h => h rfl) h
    injection h with _ h
    exact ⟨by rw [hexText_inj e], h⟩
  | .num, .num m, .num n, _, _ =>
    have hnc : ∀ z : UInt8, z = 44 ∨ z = 93 → ¬ (48 ≤ z.toNat ∧ z.toNat ≤ 57) := by
      rintro z (e | e) <;> rw [e] <;> decide
    obtain ⟨e, h⟩ := split_inj (fun z => 48 ≤ z.toNat ∧ z.toNat ≤ 57) _ _ _ _ _ _ (Hyperion.dec_digits m) (Hyperion.dec_digits n) (hnc c hc) (hnc d hd) h
    exact ⟨by rw [Hyperion.dec_inj e], h⟩
  | .str, .str s, .str t, _, _ =>
    have h : quoted (s.flatMap esc) ++ c :: x = quoted (t.flatMap esc) ++ d :: y := h
    rw [quoted_append, quoted_append] at h
    injection h with _ h
    obtain ⟨e, h⟩ := text_inj s t _ _ h
    exact ⟨by rw [e], h⟩
  | .addr, .addr s, .addr t, _, _ =>
    have h : quoted (48 :: 120 :: s.flatMap byteText) ++ c :: x = quoted (48 :: 120 :: t.flatMap byteText) ++ d :: y := h
    rw [quoted_append, quoted_append] at h
    injection h with _ h
    injection h with _ h
    injection h with _ h
    obtain ⟨e, h⟩ := split_inj (fun z => z ≠ 34) _ _ _ _ _ _ (bytes_ne s) (bytes_ne t) (fun h => h rfl) (fun h => h rfl) h
    injection h with _ h
    exact ⟨by rw [bytes_inj s t e], h⟩

theorem args_inj : ∀ (sig : List Kind) (as bs : List Arg) (x y : Text), Fits sig as → Fits sig bs →
    joined (as.map argText) ++ 93 :: x = joined (bs.map argText) ++ 93 :: y → as = bs
  | [], [], [], _, _, _, _, _ => rfl
  | [], _ :: _, _, _, _, h, _, _ => by cases h.1
  | [], [], _ :: _, _, _, _, h, _ => by cases h.1
  | _ :: _, [], _, _, _, h, _, _ => by cases h.1
  | _ :: _, _ :: _, [], _, _, _, h, _ => by cases h.1
  | [κ], [a], [b], x, y, ha, hb, h =>
    by rw [(argText_inj κ a b (ha.2 (κ, a) List.mem_cons_self) (hb.2 (κ, b) List.mem_cons_self) 93 93 x y (Or.inr rfl) (Or.inr rfl) h).1]
  | [_], _ :: _ :: _, _, _, _, h, _, _ => by cases h.1
  | [_], [_], _ :: _ :: _, _, _, _, h, _ => by cases h.1
  | _ :: _ :: _, [_], _, _, _, h, _, _ => by cases h.1
  | _ :: _ :: _, _ :: _ :: _, [_], _, _, _, h, _ => by cases h.1
  | κ :: κ' :: sig, a :: a' :: as, b :: b' :: bs, x, y, ha, hb, h => by
    have h : (argText a ++ 44 :: joined ((a' :: as).map argText)) ++ 93 :: x = (argText b ++ 44 :: joined ((b' :: bs).map argText)) ++ 93 :: y := h
    rw [List.append_assoc, List.append_assoc] at h
    obtain ⟨e, h⟩ := argText_inj κ a b (ha.2 (κ, a) List.mem_cons_self) (hb.2 (κ, b) List.mem_cons_self) 44 44 _ _ (Or.inl rfl) (Or.inl rfl) h
    injection h with _ h
    have ih := args_inj (κ' :: sig) (a' :: as) (b' :: bs) x y
      ⟨Nat.succ_inj.1 ha.1, fun z hz => ha.2 z (List.mem_cons_of_mem _ hz)⟩ ⟨Nat.succ_inj.1 hb.1, fun z hz => hb.2 z (List.mem_cons_of_mem _ hz)⟩ h
    rw [e, ih]

end Rpc.Cache
