import Verif.App.ZeroHeightSpec
/-!
# Lemmas on the export for height zero
-/

namespace ZeroHeight

theorem sum_eq (f : Val → Nat) (vs : List Val) : sum f vs = (vs.map f).sum := by
  induction vs with
  | nil => rfl
  | cons v vs ih => rw [List.map_cons, List.sum_cons, sum, ih]

theorem find_addr {a : List Nat} {vs : List Val} {v : Val} (h : find a vs = some v) : v.addr = a ∧ v ∈ vs := by
  induction vs with
  | nil => cases h
  | cons w vs ih =>
    unfold find at h
    split at h
    · rename_i e
      injection h with h
      subst h
      exact ⟨e, List.mem_cons_self⟩
    · exact ⟨(ih h).1, List.mem_cons_of_mem _ (ih h).2⟩

theorem find_none {a : List Nat} {vs : List Val} : find a vs = none ↔ ∀ v ∈ vs, v.addr ≠ a := by
  induction vs with
  | nil => exact ⟨fun _ v h => (by cases h), fun _ => rfl⟩
  | cons w vs ih =>
    unfold find
    by_cases e : w.addr = a
    · rw [if_pos e]
      exact ⟨fun h => (by cases h), fun h => absurd e (h w List.mem_cons_self)⟩
    · rw [if_neg e, ih]
      constructor
      · intro h v hv
        cases hv with
        | head => exact e
        | tail _ hv => exact h v hv
      · intro h v hv
        exact h v (List.mem_cons_of_mem _ hv)

theorem find_of_mem {vs : List Val} {v : Val} (hv : v ∈ vs) : ∃ w, find v.addr vs = some w := by
  cases h : find v.addr vs with
  | some w => exact ⟨w, rfl⟩
  | none => exact absurd rfl (find_none.1 h v hv)

theorem find_unique {vs : List Val} (hu : vs.Pairwise fun v w => v.addr ≠ w.addr) {v : Val} (hv : v ∈ vs) :
    find v.addr vs = some v := by
  induction vs with
  | nil => cases hv
  | cons w vs ih =>
    rw [List.pairwise_cons] at hu
    unfold find
    cases hv with
    | head => rw [if_pos rfl]
    | tail _ hv => rw [if_neg (hu.1 v hv), ih hu.2 hv]

theorem find_map {f : Val → Val} (hf : ∀ v, (f v).addr = v.addr) (a : List Nat) (vs : List Val) :
    find a (vs.map f) = (find a vs).map f := by
  induction vs with
  | nil => rfl
  | cons w vs ih =>
    rw [List.map_cons]
    unfold find
    rw [hf]
    split
    · rfl
    · exact ih

theorem find_upd {f : Val → Val} (hf : ∀ v, (f v).addr = v.addr) (a b : List Nat) (vs : List Val) :
    find a (upd b f vs) = if a = b then (find a vs).map f else find a vs := by
  induction vs with
  | nil => split <;> rfl
  | cons w vs ih =>
    unfold upd
    by_cases e : w.addr = b
    · rw [if_pos e]
      simp only [find, hf]
      by_cases e2 : a = b
      · subst e2
        rw [if_pos e, if_pos rfl, if_pos e]
        rfl
      · rw [if_neg e2, if_neg (fun h => e2 (h.symm.trans e))]
        rw [if_neg (fun h => e2 (h.symm.trans e))]
    · rw [if_neg e]
      simp only [find]
      by_cases e2 : w.addr = a
      · rw [if_pos e2, if_pos e2, if_neg (fun h => e (e2.trans h))]
      · rw [if_neg e2, if_neg e2, ih]

theorem upd_addrs {f : Val → Val} (hf : ∀ v, (f v).addr = v.addr) (b : List Nat) (vs : List Val) :
    (upd b f vs).map Val.addr = vs.map Val.addr := by
  induction vs with
  | nil => rfl
  | cons w vs ih =>
    unfold upd
    split
    · rw [List.map_cons, hf, List.map_cons]
    · rw [List.map_cons, ih, List.map_cons]

theorem upd_forall {P : Val → Prop} {f : Val → Val} (hf : ∀ v, P v → P (f v)) {vs : List Val} (h : ∀ v ∈ vs, P v)
    (b : List Nat) : ∀ v ∈ upd b f vs, P v := by
  induction vs with
  | nil => exact h
  | cons w vs ih =>
    intro v hv
    unfold upd at hv
    split at hv
    · cases hv with
      | head => exact hf _ (h _ List.mem_cons_self)
      | tail _ hv => exact h _ (List.mem_cons_of_mem _ hv)
    · cases hv with
      | head => exact h _ List.mem_cons_self
      | tail _ hv => exact ih (fun v hv => h v (List.mem_cons_of_mem _ hv)) v hv

theorem upd_map_eq {β : Type} {g : Val → β} {f : Val → Val} (hf : ∀ v, g (f v) = g v) (b : List Nat) (vs : List Val) :
    (upd b f vs).map g = vs.map g := by
  induction vs with
  | nil => rfl
  | cons w vs ih =>
    unfold upd
    split
    · rw [List.map_cons, hf, List.map_cons]
    · rw [List.map_cons, ih, List.map_cons]

theorem upd_sum {f : Val → Val} {b : List Nat} {vs : List Val} {v : Val} (h : find b vs = some v) :
    ((upd b f vs).map Val.outstanding).sum + v.outstanding = (vs.map Val.outstanding).sum + (f v).outstanding := by
  induction vs with
  | nil => cases h
  | cons w vs ih =>
    unfold find at h
    unfold upd
    split at h
    · rename_i e
      injection h with h
      subst h
      rw [if_pos e, List.map_cons, List.map_cons, List.sum_cons, List.sum_cons]
      omega
    · rename_i e
      rw [if_neg e, List.map_cons, List.map_cons, List.sum_cons, List.sum_cons]
      have := ih h
      omega

theorem unique_of_addrs {vs ws : List Val} (h : ws.map Val.addr = vs.map Val.addr)
    (hu : vs.Pairwise fun v w => v.addr ≠ w.addr) : ws.Pairwise fun v w => v.addr ≠ w.addr := by
  have : (vs.map Val.addr).Pairwise (· ≠ ·) := List.pairwise_map.2 hu
  rw [← h] at this
  exact List.pairwise_map.1 this

/-! ## Coins -/

theorem commissions_total (s : State) : total (commissions s) = total s := by
  unfold total commissions
  dsimp only
  have : ∀ vs : List Val, sum whole vs + ((vs.map fun v =>
      ({ v with outstanding := v.outstanding - whole v, commission := v.commission - whole v } : Val)).map
        Val.outstanding).sum = (vs.map Val.outstanding).sum := by
    intro vs
    induction vs with
    | nil => rfl
    | cons v vs ih =>
      simp only [List.map_cons, List.sum_cons, sum]
      have : whole v ≤ v.outstanding := Nat.min_le_right _ _
      simp only [List.map_map] at ih ⊢
      omega
  have := this s.vals
  omega

theorem withdraw_total (s : State) (d : Del) : total (withdraw s d) = total s := by
  unfold withdraw
  cases h : find d.val s.vals with
  | none => rfl
  | some v =>
    dsimp only
    unfold total
    dsimp only
    have := upd_sum (f := fun w => { w with outstanding := w.outstanding - min d.reward v.outstanding,
                                            period := w.period + 1 }) h
    dsimp only at this
    have hm : min d.reward v.outstanding ≤ v.outstanding := Nat.min_le_right _ _
    generalize min d.reward v.outstanding = r at *
    have hd := Nat.div_add_mod r one
    rw [Nat.mul_comm] at hd
    omega

theorem withdraws_total (ds : List Del) (s : State) : total (ds.foldl withdraw s) = total s := by
  induction ds generalizing s with
  | nil => rfl
  | cons d ds ih => rw [List.foldl_cons, ih, withdraw_total]

theorem reinit_total (c : Code) (s : State) : total (reinit c s) = total s := by
  unfold reinit
  split
  · unfold total
    dsimp only
    rw [sum_eq]
    have : ∀ vs : List Val, ((vs.map fun v => ({ v with outstanding := 0, commission := 0, period := 1 } : Val)).map
        Val.outstanding).sum = 0 := by
      intro vs
      induction vs with
      | nil => rfl
      | cons v vs ih => rw [List.map_cons, List.map_cons, List.sum_cons, ih]
    rw [this]
    omega
  · rfl

/-! ## Addresses, and what else stays -/

/-- What withdrawing leaves alone: addresses, jail, delegations. -/
theorem withdraw_keeps (s : State) (d : Del) :
    (withdraw s d).vals.map (fun v => (v.addr, v.jailed)) = s.vals.map (fun v => (v.addr, v.jailed)) ∧
      (withdraw s d).dels = s.dels := by
  unfold withdraw
  cases find d.val s.vals with
  | none => exact ⟨rfl, rfl⟩
  | some v =>
    refine ⟨?_, rfl⟩
    dsimp only
    rw [upd_map_eq]
    intro v
    rfl

theorem withdraws_keep (ds : List Del) (s : State) :
    (ds.foldl withdraw s).vals.map (fun v => (v.addr, v.jailed)) = s.vals.map (fun v => (v.addr, v.jailed)) ∧
      (ds.foldl withdraw s).dels = s.dels := by
  induction ds generalizing s with
  | nil => exact ⟨rfl, rfl⟩
  | cons d ds ih =>
    rw [List.foldl_cons]
    have h1 := ih (withdraw s d)
    have h2 := withdraw_keeps s d
    exact ⟨h1.1.trans h2.1, h1.2.trans h2.2⟩

/-- The state before delegations are reinitialised. -/
def ready (c : Code) (s : State) : State := reinit c (clear (s.dels.foldl withdraw (commissions s)))

theorem ready_keeps (c : Code) (s : State) :
    (ready c s).vals.map (fun v => (v.addr, v.jailed)) = s.vals.map (fun v => (v.addr, v.jailed)) ∧
      (ready c s).dels = s.dels := by
  have h1 := withdraws_keep s.dels (commissions s)
  have h2 : (commissions s).vals.map (fun v => (v.addr, v.jailed)) = s.vals.map (fun v => (v.addr, v.jailed)) := by
    unfold commissions
    rw [List.map_map]
    rfl
  have h3 : ∀ t : State, (reinit c (clear t)).vals.map (fun v => (v.addr, v.jailed))
      = t.vals.map (fun v => (v.addr, v.jailed)) ∧ (reinit c (clear t)).dels = t.dels := by
    intro t
    unfold reinit
    split
    · refine ⟨?_, rfl⟩
      dsimp only
      rw [List.map_map]
      rfl
    · exact ⟨rfl, rfl⟩
  exact ⟨(h3 _).1.trans (h1.1.trans h2), (h3 _).2.trans h1.2⟩

theorem ready_total (c : Code) (s : State) : total (ready c s) = total s := by
  unfold ready
  rw [reinit_total]
  show total (s.dels.foldl withdraw (commissions s)) = _
  rw [withdraws_total, commissions_total]

theorem begin_keeps {s s' : State} {d : Del} (h : begin s d = some s') :
    s'.vals.map (fun v => (v.addr, v.jailed, v.outstanding)) = s.vals.map (fun v => (v.addr, v.jailed, v.outstanding)) ∧
      s'.dels = s.dels ∧ s'.pool = s.pool ∧ s'.paid = s.paid := by
  unfold begin at h
  cases hf : find d.val s.vals with
  | none =>
    rw [hf] at h
    injection h with h
    subst h
    exact ⟨rfl, rfl, rfl, rfl⟩
  | some v =>
    rw [hf] at h
    dsimp only at h
    split at h
    · cases h
    · injection h with h
      subst h
      refine ⟨?_, rfl, rfl, rfl⟩
      dsimp only
      rw [upd_map_eq]
      intro v
      rfl

theorem beginAll_keeps {ds : List Del} {s s' : State} (h : beginAll ds s = some s') :
    s'.vals.map (fun v => (v.addr, v.jailed, v.outstanding)) = s.vals.map (fun v => (v.addr, v.jailed, v.outstanding)) ∧
      s'.dels = s.dels ∧ s'.pool = s.pool ∧ s'.paid = s.paid := by
  induction ds generalizing s with
  | nil =>
    injection h with h
    subst h
    exact ⟨rfl, rfl, rfl, rfl⟩
  | cons d ds ih =>
    unfold beginAll at h
    cases hb : begin s d with
    | none => rw [hb] at h; cases h
    | some s1 =>
      rw [hb] at h
      obtain ⟨a1, a2, a3, a4⟩ := ih h
      obtain ⟨b1, b2, b3, b4⟩ := begin_keeps hb
      exact ⟨a1.trans b1, a2.trans b2, a3.trans b3, a4.trans b4⟩

/-! ## Periods -/

/-- Each validator has a historical record for its last period, with a reference more for a delegation that starts
there; other starts have theirs. -/
structure Kept (s : State) : Prop where
  last : ∀ a v, find a s.vals = some v → 1 ≤ v.period ∧ 1 ≤ s.refs a (v.period - 1)
  starts : ∀ w a p, (w, a, p) ∈ s.starts → ∃ v, find a s.vals = some v ∧ p + 1 ≤ v.period ∧ 1 ≤ s.refs a p ∧
    (p + 1 = v.period → 2 ≤ s.refs a p)

theorem begin_kept {s : State} (h : Kept s) (d : Del) :
    ∃ s', begin s d = some s' ∧ Kept s' ∧ (∀ x ∈ s.starts, x ∈ s'.starts) ∧
      (∀ v, find d.val s.vals = some v → ∃ p, (d.who, d.val, p) ∈ s'.starts) := by
  unfold begin
  cases hf : find d.val s.vals with
  | none => exact ⟨s, rfl, h, fun _ hx => hx, fun v hv => (by cases hv)⟩
  | some v =>
    obtain ⟨hp, hr⟩ := h.last _ _ hf
    dsimp only
    rw [if_neg (by omega)]
    refine ⟨_, rfl, ⟨?_, ?_⟩, ?_, ?_⟩
    · intro a w hw
      dsimp only at hw ⊢
      rw [find_upd (f := fun v => { v with period := v.period + 1 }) (fun _ => rfl)] at hw
      by_cases e : a = d.val
      · subst e
        rw [if_pos rfl, hf] at hw
        injection hw with hw
        subst hw
        refine ⟨by dsimp only; omega, ?_⟩
        dsimp only
        rw [if_pos ⟨rfl, by omega⟩]
        omega
      · rw [if_neg e] at hw
        rw [if_neg (fun x => e x.1), if_neg (fun x => e x.1)]
        exact h.last a w hw
    · intro w a p hm
      dsimp only at hm ⊢
      rw [find_upd (f := fun v => { v with period := v.period + 1 }) (fun _ => rfl)]
      rw [List.mem_append] at hm
      cases hm with
      | inl hm =>
        obtain ⟨u, hu, h1, h2, h3⟩ := h.starts w a p hm
        by_cases e : a = d.val
        · subst e
          rw [hf] at hu
          injection hu with hu
          subst hu
          refine ⟨{ v with period := v.period + 1 }, by rw [if_pos rfl, hf]; rfl, by dsimp only; omega, ?_, ?_⟩
          · rw [if_neg (fun x => absurd x.2 (by omega))]
            split
            · rename_i hx
              have := h3 (by omega)
              omega
            · exact h2
          · intro hx
            dsimp only at hx
            omega
        · refine ⟨u, by rw [if_neg e]; exact hu, h1, ?_, ?_⟩
          · rw [if_neg (fun x => e x.1), if_neg (fun x => e x.1)]
            exact h2
          · rw [if_neg (fun x => e x.1), if_neg (fun x => e x.1)]
            exact h3
      | inr hm =>
        rw [List.mem_singleton] at hm
        injection hm with hw hm
        injection hm with ha hpp
        subst ha hpp
        refine ⟨{ v with period := v.period + 1 }, by rw [if_pos rfl, hf]; rfl, Nat.le_refl _, ?_, ?_⟩
        · rw [if_pos ⟨rfl, rfl⟩]
          omega
        · intro _
          rw [if_pos ⟨rfl, rfl⟩]
          omega
    · intro x hx
      exact List.mem_append_left _ hx
    · intro _ _
      exact ⟨v.period, List.mem_append_right _ (List.mem_singleton.2 rfl)⟩

theorem find_isSome_of_addrs {a : List Nat} {vs ws : List Val} (h : ws.map Val.addr = vs.map Val.addr) {v : Val}
    (hv : find a vs = some v) : ∃ w, find a ws = some w := by
  obtain ⟨ha, hm⟩ := find_addr hv
  have : a ∈ ws.map Val.addr := by
    rw [h]
    exact List.mem_map.2 ⟨v, hm, ha⟩
  obtain ⟨w, hw, e⟩ := List.mem_map.1 this
  rw [← e]
  exact find_of_mem hw

theorem addrs_of {vs ws : List Val}
    (h : ws.map (fun v => (v.addr, v.jailed, v.outstanding)) = vs.map (fun v => (v.addr, v.jailed, v.outstanding))) :
    ws.map Val.addr = vs.map Val.addr := by
  have := congrArg (List.map Prod.fst) h
  rw [List.map_map, List.map_map] at this
  exact this

theorem beginAll_kept (ds : List Del) {s : State} (h : Kept s) :
    ∃ s', beginAll ds s = some s' ∧ Kept s' ∧ (∀ x ∈ s.starts, x ∈ s'.starts) ∧
      (∀ d ∈ ds, ∀ v, find d.val s.vals = some v → ∃ p, (d.who, d.val, p) ∈ s'.starts) := by
  induction ds generalizing s with
  | nil => exact ⟨s, rfl, h, fun _ hx => hx, fun d hd => (by cases hd)⟩
  | cons d ds ih =>
    obtain ⟨s1, e1, k1, m1, n1⟩ := begin_kept h d
    obtain ⟨s2, e2, k2, m2, n2⟩ := ih k1
    refine ⟨s2, by unfold beginAll; rw [e1]; exact e2, k2, fun x hx => m2 x (m1 x hx), ?_⟩
    intro d' hd v hv
    cases hd with
    | head =>
      obtain ⟨p, hp⟩ := n1 v hv
      exact ⟨p, m2 _ hp⟩
    | tail _ hd =>
      obtain ⟨w, hw⟩ := find_isSome_of_addrs (addrs_of (begin_keeps e1).1) hv
      exact n2 d' hd w hw

theorem ready_kept (s : State) : Kept (ready repaired s) := by
  unfold ready reinit
  rw [if_pos (show repaired.passes = true from rfl)]
  refine ⟨?_, fun w a p h => (by cases h)⟩
  intro a v hv
  dsimp only at hv ⊢
  rw [find_map (f := fun v => { v with outstanding := 0, commission := 0, period := 1 }) (fun _ => rfl)] at hv
  cases hf : find a (clear (s.dels.foldl withdraw (commissions s))).vals with
  | none => rw [hf] at hv; cases hv
  | some u =>
    rw [hf] at hv
    injection hv with hv
    subst hv
    refine ⟨Nat.le_refl _, ?_⟩
    rw [if_pos ⟨rfl, rfl⟩]
    omega

/-! ## The last loop -/

theorem reset_idem (allow : List (List Nat)) (v : Val) : reset allow (reset allow v) = reset allow v := by
  unfold reset
  dsimp only
  cases v.jailed <;> cases allow.isEmpty <;> cases allow.contains v.addr <;> rfl

theorem resetAll_repaired (allow : List (List Nat)) (us vs : List Val)
    (hin : ∀ u ∈ us, ∃ v, find u.addr vs = some v) :
    ∃ ws, resetAll repaired allow (us.map key) vs = some ws ∧ ws.map Val.addr = vs.map Val.addr ∧
      (∀ a, find a ws = (find a vs).map fun v => if a ∈ us.map Val.addr then reset allow v else v) := by
  induction us generalizing vs with
  | nil =>
    refine ⟨vs, rfl, rfl, ?_⟩
    intro a
    cases find a vs <;> simp
  | cons u us ih =>
    obtain ⟨v, hv⟩ := hin u List.mem_cons_self
    have hr : ∀ v, (reset allow v).addr = v.addr := fun _ => rfl
    obtain ⟨ws, e, ha, hf⟩ := ih (upd u.addr (reset allow) vs) (by
      intro u' hu'
      obtain ⟨v', hv'⟩ := hin u' (List.mem_cons_of_mem _ hu')
      exact find_isSome_of_addrs (upd_addrs hr _ _) hv')
    refine ⟨ws, ?_, ha.trans (upd_addrs hr _ _), ?_⟩
    · rw [List.map_cons]
      unfold resetAll
      have : (key u).drop repaired.cut = u.addr := rfl
      rw [this, hv]
      exact e
    · intro a
      rw [hf, find_upd hr]
      by_cases e1 : a = u.addr
      · subst e1
        rw [if_pos rfl, hv, Option.map_some, Option.map_some, Option.map_some, List.map_cons,
          if_pos List.mem_cons_self]
        split
        · rw [reset_idem]
        · rfl
      · rw [if_neg e1]
        have : a ∈ (u :: us).map Val.addr ↔ a ∈ us.map Val.addr := by
          rw [List.map_cons, List.mem_cons]
          exact ⟨fun h => h.resolve_left e1, Or.inr⟩
        simp only [this]

/-! ## What is paid -/

theorem withdraws_paid (ds : List Del) (s : State) (hd : ∀ d ∈ ds, ∃ v, find d.val s.vals = some v)
    (hc : ∀ a v, find a s.vals = some v → owed a ds ≤ v.outstanding) :
    (ds.foldl withdraw s).paid = s.paid + (ds.map fun d => coins d.reward).sum := by
  induction ds generalizing s with
  | nil => rfl
  | cons d ds ih =>
    obtain ⟨v, hv⟩ := hd d List.mem_cons_self
    have ho : d.reward + owed d.val ds ≤ v.outstanding := by
      have := hc _ _ hv
      unfold owed at this ⊢
      rw [List.map_cons, List.sum_cons, if_pos rfl] at this
      exact this
    have hm : min d.reward v.outstanding = d.reward := Nat.min_eq_left (by omega)
    have hf : ∀ w : Val, ({ w with outstanding := w.outstanding - d.reward, period := w.period + 1 } : Val).addr = w.addr :=
      fun _ => rfl
    have hw : withdraw s d = { s with
        vals := upd d.val (fun v => { v with outstanding := v.outstanding - d.reward, period := v.period + 1 }) s.vals
        pool := s.pool + d.reward % one
        paid := s.paid + d.reward / one * one } := by
      unfold withdraw
      rw [hv]
      dsimp only
      rw [hm]
    rw [List.foldl_cons, ih, List.map_cons, List.sum_cons, hw]
    · show s.paid + coins d.reward + _ = _
      omega
    · intro d' hd'
      obtain ⟨u, hu⟩ := hd d' (List.mem_cons_of_mem _ hd')
      rw [hw]
      exact find_isSome_of_addrs (upd_addrs hf _ _) hu
    · intro a u hu
      rw [hw] at hu
      dsimp only at hu
      rw [find_upd hf] at hu
      by_cases e : a = d.val
      · subst e
        rw [if_pos rfl, hv] at hu
        injection hu with hu
        subst hu
        dsimp only
        omega
      · rw [if_neg e] at hu
        have := hc a u hu
        unfold owed at this ⊢
        rw [List.map_cons, List.sum_cons, if_neg (fun h => e h.symm)] at this
        omega

theorem ready_paid (c : Code) {s : State} (h : Covered s) :
    (ready c s).paid = s.paid + (s.vals.map fun v => coins v.commission).sum + (s.dels.map fun d => coins d.reward).sum := by
  have hr : ∀ t : State, (reinit c (clear t)).paid = t.paid := by
    intro t
    unfold reinit
    split <;> rfl
  have hwh : ∀ v ∈ s.vals, whole v = coins v.commission := by
    intro v hv
    have := h.2 v hv
    have h2 : v.commission / one * one ≤ v.commission := Nat.div_mul_le_self _ _
    exact Nat.min_eq_left (by omega)
  have hf : ∀ v : Val, ({ v with outstanding := v.outstanding - whole v, commission := v.commission - whole v } : Val).addr
      = v.addr := fun _ => rfl
  unfold ready
  rw [hr, withdraws_paid]
  · show s.paid + sum whole s.vals + _ = _
    rw [sum_eq, List.map_congr_left hwh]
  · intro d hd
    obtain ⟨v, hv, e⟩ := h.1 d hd
    obtain ⟨w, hw⟩ := find_of_mem hv
    rw [e] at hw
    unfold commissions
    dsimp only
    rw [find_map hf, hw]
    exact ⟨_, rfl⟩
  · intro a v hv
    unfold commissions at hv
    dsimp only at hv
    rw [find_map hf] at hv
    cases hw : find a s.vals with
    | none => rw [hw] at hv; cases hv
    | some w =>
      rw [hw] at hv
      injection hv with hv
      subst hv
      obtain ⟨e, hm⟩ := find_addr hw
      have h1 := h.2 w hm
      rw [e] at h1
      dsimp only
      have h2 : whole w ≤ w.commission := by
        rw [hwh w hm]
        exact Nat.div_mul_le_self _ _
      omega

/-! ## Records of heights -/

theorem ready_lists (c : Code) (s : State) :
    (ready c s).reds = s.reds ∧ (ready c s).ubds = s.ubds ∧ (ready c s).infos = s.infos := by
  have h1 : ∀ (ds : List Del) (t : State), (ds.foldl withdraw t).reds = t.reds ∧ (ds.foldl withdraw t).ubds = t.ubds ∧
      (ds.foldl withdraw t).infos = t.infos := by
    intro ds
    induction ds with
    | nil => exact fun t => ⟨rfl, rfl, rfl⟩
    | cons d ds ih =>
      intro t
      rw [List.foldl_cons]
      have : (withdraw t d).reds = t.reds ∧ (withdraw t d).ubds = t.ubds ∧ (withdraw t d).infos = t.infos := by
        unfold withdraw
        cases find d.val t.vals <;> exact ⟨rfl, rfl, rfl⟩
      obtain ⟨a, b, c⟩ := ih (withdraw t d)
      exact ⟨a.trans this.1, b.trans this.2.1, c.trans this.2.2⟩
  have h2 : ∀ t : State, (reinit c (clear t)).reds = t.reds ∧ (reinit c (clear t)).ubds = t.ubds ∧
      (reinit c (clear t)).infos = t.infos := by
    intro t
    unfold reinit
    split <;> exact ⟨rfl, rfl, rfl⟩
  obtain ⟨a, b, c⟩ := h2 (s.dels.foldl withdraw (commissions s))
  obtain ⟨a', b', c'⟩ := h1 s.dels (commissions s)
  exact ⟨a.trans a', b.trans b', c.trans c'⟩

theorem beginAll_lists {ds : List Del} {s s' : State} (h : beginAll ds s = some s') :
    s'.reds = s.reds ∧ s'.ubds = s.ubds ∧ s'.infos = s.infos := by
  induction ds generalizing s with
  | nil =>
    injection h with h
    subst h
    exact ⟨rfl, rfl, rfl⟩
  | cons d ds ih =>
    unfold beginAll at h
    cases hb : begin s d with
    | none => rw [hb] at h; cases h
    | some s1 =>
      rw [hb] at h
      have : s1.reds = s.reds ∧ s1.ubds = s.ubds ∧ s1.infos = s.infos := by
        unfold begin at hb
        cases hf : find d.val s.vals with
        | none =>
          rw [hf] at hb
          injection hb with hb
          subst hb
          exact ⟨rfl, rfl, rfl⟩
        | some v =>
          rw [hf] at hb
          dsimp only at hb
          split at hb
          · cases hb
          · injection hb with hb
            subst hb
            exact ⟨rfl, rfl, rfl⟩
      obtain ⟨a, b, c⟩ := ih h
      exact ⟨a.trans this.1, b.trans this.2.1, c.trans this.2.2⟩

end ZeroHeight
