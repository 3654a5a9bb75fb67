import Verif.App.ZeroHeightLemmas
/-!
# Properties of exports (C114)

The property: an export for height zero succeeds and gives a state fit for a new chain, without loss of a coin. It is
false of the code: with a validator it never succeeds. With the two lines repaired it is proved, unless the list of
validators to be kept leaves one out that takes part.
-/

namespace ZeroHeight

/-- Exports that do not start from zero write the state as it is, to go on at the next height. -/
theorem plain_export (c : Code) (readable : List Nat → Bool) (allow : List (List Nat)) (last : Nat) (s : State) :
    «export» c readable false allow last s = (.ok s, last + 1) := rfl

theorem zero_export (c : Code) (readable : List Nat → Bool) (allow : List (List Nat)) (last : Nat) (s : State) :
    «export» c readable true allow last s = (prepare c readable allow s, 0) := rfl

/-- A list with an entry that is no address is refused. -/
theorem bad_list_fails (c : Code) {readable : List Nat → Bool} {allow : List (List Nat)} {a : List Nat} (ha : a ∈ allow)
    (hr : readable a = false) (s : State) : prepare c readable allow s = .fails := by
  unfold prepare
  rw [if_neg]
  intro h
  rw [List.all_eq_true] at h
  rw [h a ha] at hr
  cases hr

/-- **The export for height zero never succeeds** on a chain that has a validator: keys of validators are cut in the
wrong place, so that the validator read from a key is not found. -/
theorem never_exports {readable : List Nat → Bool} {allow : List (List Nat)} {s : State} (hv : s.vals ≠ [])
    (hl : ∀ v ∈ s.vals, v.addr.length = 20) : ∀ s', prepare code readable allow s ≠ .ok s' := by
  intro s' h
  unfold prepare at h
  split at h
  · dsimp only at h
    change (match beginAll s.dels (ready code s) with
      | none => Out.panics
      | some s2 => _) = _ at h
    cases hb : beginAll s.dels (ready code s) with
    | none => rw [hb] at h; cases h
    | some s2 =>
      rw [hb] at h
      dsimp only at h
      have haddr : s2.vals.map Val.addr = s.vals.map Val.addr := by
        rw [addrs_of (beginAll_keeps hb).1]
        have := congrArg (List.map Prod.fst) (ready_keeps code s).1
        rw [List.map_map, List.map_map] at this
        exact this
      have hlen : ∀ v ∈ s2.vals, v.addr.length = 20 := by
        intro v hv'
        have : v.addr ∈ s.vals.map Val.addr := by
          rw [← haddr]
          exact List.mem_map_of_mem hv'
        obtain ⟨w, hw, e⟩ := List.mem_map.1 this
        rw [← e]
        exact hl w hw
      have hne : s2.vals ≠ [] := by
        intro e
        rw [e] at haddr
        exact hv (List.map_eq_nil_iff.1 haddr.symm)
      have : resetAll code allow (s2.vals.map key).reverse s2.vals = none := by
        rw [← List.map_reverse]
        cases hr : s2.vals.reverse with
        | nil => exact absurd (List.reverse_eq_nil_iff.1 hr) hne
        | cons u us =>
          have hu : u ∈ s2.vals := List.mem_reverse.1 (by rw [hr]; exact List.mem_cons_self)
          rw [List.map_cons]
          unfold resetAll
          have hn : find ((key u).drop code.cut) s2.vals = none := by
            rw [find_none]
            intro v hv' e
            have := congrArg List.length e
            rw [hlen v hv'] at this
            have h2 : ((key u).drop code.cut).length = u.addr.length + 1 := rfl
            rw [h2, hlen u hu] at this
            omega
          rw [hn]
      rw [this] at h
      cases h
  · cases h

/-- **With a delegation it panics**: historical rewards are deleted, and validators are not reinitialised, so that
there is no record to take a reference off. -/
theorem panics_with_delegations {readable : List Nat → Bool} {allow : List (List Nat)} {s : State}
    (ha : allow.all readable = true) {d : Del} (hd : d ∈ s.dels) {v : Val} (hv : v ∈ s.vals) (he : v.addr = d.val) :
    prepare code readable allow s = .panics := by
  have key : ∀ (ds : List Del) (t : State), d ∈ ds → (∀ a p, t.refs a p = 0) → (∃ w, find d.val t.vals = some w) →
      beginAll ds t = none := by
    intro ds
    induction ds with
    | nil => intro t h; cases h
    | cons d' ds ih =>
      intro t hm hz hw
      unfold beginAll begin
      cases hf : find d'.val t.vals with
      | some u =>
        dsimp only
        rw [if_pos (hz _ _)]
      | none =>
        dsimp only
        refine ih t ?_ hz hw
        cases hm with
        | head =>
          obtain ⟨w, hw⟩ := hw
          rw [hf] at hw
          cases hw
        | tail _ hm => exact hm
  unfold prepare
  rw [if_pos ha]
  dsimp only
  have : beginAll s.dels (ready code s) = none := by
    refine key _ _ hd (fun _ _ => rfl) ?_
    have haddr : (ready code s).vals.map Val.addr = s.vals.map Val.addr := by
      have := congrArg (List.map Prod.fst) (ready_keeps code s).1
      rw [List.map_map, List.map_map] at this
      exact this
    have hmem : d.val ∈ (ready code s).vals.map Val.addr := by
      rw [haddr, ← he]
      exact List.mem_map_of_mem hv
    obtain ⟨w, hw, e⟩ := List.mem_map.1 hmem
    rw [← e]
    exact find_of_mem hw
  change (match beginAll s.dels (ready code s) with
      | none => Out.panics
      | some s2 => _) = _
  rw [this]

/-- **Repaired, it gives a state fit for a new chain** without loss of a coin: full statement for the code, proved
here for the code with both lines repaired, and for lists that leave no active validator out. -/
theorem repaired_partial {readable : List Nat → Bool} {allow : List (List Nat)} {s : State} (hu : Unique s)
    (ha : allow.all readable = true) (hc : Complete allow s) :
    ∃ s', prepare repaired readable allow s = .ok s' ∧ Fit s' ∧ total s' = total s ∧ s'.dels = s.dels ∧
      (∀ v ∈ s.vals, ∃ v' ∈ s'.vals, v'.addr = v.addr ∧ v'.jailed = v.jailed) ∧
      s'.vals.map Val.addr = s.vals.map Val.addr := by
  obtain ⟨s2, hb, hk, _, hs⟩ := beginAll_kept s.dels (ready_kept s)
  obtain ⟨b1, b2, b3, b4⟩ := beginAll_keeps hb
  obtain ⟨r1, r2⟩ := ready_keeps repaired s
  have hjail : s2.vals.map (fun v => (v.addr, v.jailed)) = s.vals.map (fun v => (v.addr, v.jailed)) := by
    rw [← r1]
    have := congrArg (List.map fun x : List Nat × Bool × Nat => (x.1, x.2.1)) b1
    rw [List.map_map, List.map_map] at this
    exact this
  have haddr : s2.vals.map Val.addr = s.vals.map Val.addr := by
    have := congrArg (List.map Prod.fst) hjail
    rw [List.map_map, List.map_map] at this
    exact this
  have hu2 := unique_of_addrs haddr hu
  have hzero : ∀ v ∈ s2.vals, v.outstanding = 0 := by
    have hr : ∀ v ∈ (ready repaired s).vals, v.outstanding = 0 := by
      intro v hv
      unfold ready reinit at hv
      rw [if_pos (show repaired.passes = true from rfl)] at hv
      obtain ⟨w, _, e⟩ := List.mem_map.1 hv
      rw [← e]
    intro v hv
    have : (v.addr, v.jailed, v.outstanding) ∈ (ready repaired s).vals.map (fun v => (v.addr, v.jailed, v.outstanding)) := by
      rw [← b1]
      exact List.mem_map.2 ⟨v, hv, rfl⟩
    obtain ⟨w, hw, e⟩ := List.mem_map.1 this
    injection e with _ e
    injection e with _ e
    rw [← e]
    exact hr w hw
  obtain ⟨ws, hws, hwa, hwf⟩ := resetAll_repaired allow s2.vals.reverse s2.vals
    (fun u hu' => find_of_mem (List.mem_reverse.1 hu'))
  have huw := unique_of_addrs hwa hu2
  have hfw : ∀ v ∈ s2.vals, find v.addr ws = some (reset allow v) := by
    intro v hv
    rw [hwf, find_unique hu2 hv, Option.map_some, if_pos]
    exact List.mem_map.2 ⟨v, List.mem_reverse.2 hv, rfl⟩
  have hcomp : ∀ v ∈ s2.vals, (reset allow v).jailed = v.jailed := by
    intro v hv
    unfold reset
    dsimp only
    cases hc with
    | inl h => subst h; simp
    | inr h =>
      have : (v.addr, v.jailed) ∈ s.vals.map (fun v => (v.addr, v.jailed)) := by
        rw [← hjail]
        exact List.mem_map.2 ⟨v, hv, rfl⟩
      obtain ⟨w, hw, e⟩ := List.mem_map.1 this
      injection e with e1 e2
      rw [← e1, ← e2]
      cases h w hw with
      | inl hj => rw [hj]; rfl
      | inr hm => rw [List.contains_iff_mem.2 hm]; simp
  have hfrom : ∀ w ∈ ws, ∃ v ∈ s2.vals, w = reset allow v := by
    intro w hw
    have hm : w.addr ∈ s2.vals.map Val.addr := by
      rw [← hwa]
      exact List.mem_map_of_mem hw
    obtain ⟨v, hv, e⟩ := List.mem_map.1 hm
    have h1 := find_unique huw hw
    rw [← e, hfw v hv] at h1
    injection h1 with h1
    exact ⟨v, hv, h1.symm⟩
  have hidx : inIndexJailed s2.vals ws = false := by
    unfold inIndexJailed
    rw [List.any_eq_false]
    intro v hv
    rw [hfw v hv]
    dsimp only
    rw [hcomp v hv]
    cases v.jailed <;> simp
  refine ⟨{ s2 with vals := ws, reds := s2.reds.map fun _ => 0, ubds := s2.ubds.map fun _ => 0,
                    infos := s2.infos.map fun _ => 0 }, ?_, ⟨?_, ?_, ?_⟩, ?_, ?_, ?_, ?_⟩
  · unfold prepare
    rw [if_pos ha]
    dsimp only
    change (match beginAll s.dels (ready repaired s) with
      | none => Out.panics
      | some s2 => _) = _
    rw [hb]
    dsimp only
    rw [← List.map_reverse, hws]
    dsimp only
    rw [hidx]
    rfl
  · intro w hw
    obtain ⟨v, hv, e⟩ := hfrom w hw
    subst e
    exact ⟨hzero v hv, rfl⟩
  · intro d hd ⟨w, hw, e⟩
    have hd' : d ∈ s.dels := by
      have : s2.dels = s.dels := b2.trans r2
      rw [← this]
      exact hd
    have hm : d.val ∈ (ready repaired s).vals.map Val.addr := by
      rw [← addrs_of b1, ← hwa, ← e]
      exact List.mem_map_of_mem hw
    obtain ⟨u, hu', e'⟩ := List.mem_map.1 hm
    obtain ⟨u2, hu2'⟩ := find_of_mem hu'
    rw [e'] at hu2'
    obtain ⟨p, hp⟩ := hs d hd' u2 hu2'
    obtain ⟨_, _, _, h1, _⟩ := hk.starts _ _ _ hp
    exact ⟨p, hp, h1⟩
  · intro x hx
    simp only [List.mem_append, List.mem_map] at hx
    rcases hx with (⟨_, _, e⟩ | ⟨_, _, e⟩) | ⟨_, _, e⟩ <;> exact e.symm
  · have h0 : ∀ l : List Val, (∀ v ∈ l, v.outstanding = 0) → (l.map Val.outstanding).sum = 0 := by
      intro l
      induction l with
      | nil => intro _; rfl
      | cons v l ih =>
        intro h
        rw [List.map_cons, List.sum_cons, h v List.mem_cons_self, ih (fun w hw => h w (List.mem_cons_of_mem _ hw))]
    rw [← ready_total repaired s]
    unfold total
    dsimp only
    rw [h0 ws (fun w hw => by
      obtain ⟨v, hv, e⟩ := hfrom w hw
      subst e
      exact hzero v hv), b3, b4]
    have : (s2.vals.map Val.outstanding) = ((ready repaired s).vals.map Val.outstanding) := by
      have := congrArg (List.map fun x : List Nat × Bool × Nat => x.2.2) b1
      rw [List.map_map, List.map_map] at this
      exact this
    rw [← this, h0 _ hzero]
  · exact b2.trans r2
  · intro v hv
    have : (v.addr, v.jailed) ∈ s2.vals.map (fun v => (v.addr, v.jailed)) := by
      rw [hjail]
      exact List.mem_map.2 ⟨v, hv, rfl⟩
    obtain ⟨u, hu', e⟩ := List.mem_map.1 this
    injection e with e1 e2
    have hx := find_addr (hfw u hu')
    exact ⟨_, hx.2, hx.1.trans e1, (hcomp u hu').trans e2⟩
  · exact hwa.trans haddr

/-- **Everyone is paid**: in an export that succeeds, validators get the whole coins of their commissions and delegators
those of their rewards. -/
theorem everyone_is_paid {c : Code} {readable : List Nat → Bool} {allow : List (List Nat)} {s s' : State}
    (hc : Covered s) (h : prepare c readable allow s = .ok s') :
    s'.paid = s.paid + (s.vals.map fun v => coins v.commission).sum + (s.dels.map fun d => coins d.reward).sum := by
  rw [← ready_paid c hc]
  unfold prepare at h
  split at h
  · dsimp only at h
    change (match beginAll s.dels (ready c s) with
      | none => Out.panics
      | some s2 => _) = _ at h
    cases hb : beginAll s.dels (ready c s) with
    | none => rw [hb] at h; cases h
    | some s2 =>
      rw [hb] at h
      dsimp only at h
      split at h
      · cases h
      · split at h
        · cases h
        · injection h with h
          subst h
          exact (beginAll_keeps hb).2.2.2
  · cases h

/-- Redelegations, unbonding delegations and signing infos are all still there, with height zero. -/
theorem records_stay {c : Code} {readable : List Nat → Bool} {allow : List (List Nat)} {s s' : State}
    (h : prepare c readable allow s = .ok s') :
    s'.reds = List.replicate s.reds.length 0 ∧ s'.ubds = List.replicate s.ubds.length 0 ∧
      s'.infos = List.replicate s.infos.length 0 := by
  have hz : ∀ l : List Nat, l.map (fun _ => 0) = List.replicate l.length 0 := fun _ => List.map_const'
  obtain ⟨r1, r2, r3⟩ := ready_lists c s
  unfold prepare at h
  split at h
  · dsimp only at h
    change (match beginAll s.dels (ready c s) with
      | none => Out.panics
      | some s2 => _) = _ at h
    cases hb : beginAll s.dels (ready c s) with
    | none => rw [hb] at h; cases h
    | some s2 =>
      obtain ⟨b1, b2, b3⟩ := beginAll_lists hb
      rw [hb] at h
      dsimp only at h
      split at h
      · cases h
      · split at h
        · cases h
        · injection h with h
          subst h
          dsimp only
          rw [hz, hz, hz, b1, b2, b3, r1, r2, r3]
          exact ⟨rfl, rfl, rfl⟩
  · cases h

/-- **Even repaired, a list that leaves an active validator out makes it panic**: the validator is jailed but stays in
the power index. -/
theorem leaving_out_panics {readable : List Nat → Bool} {allow : List (List Nat)} {s : State} (hu : Unique s)
    (ha : allow.all readable = true) (hne : allow ≠ []) {v : Val} (hv : v ∈ s.vals) (hj : v.jailed = false)
    (hn : v.addr ∉ allow) : prepare repaired readable allow s = .panics := by
  obtain ⟨s2, hb, hk, _, hs⟩ := beginAll_kept s.dels (ready_kept s)
  obtain ⟨b1, _⟩ := beginAll_keeps hb
  obtain ⟨r1, _⟩ := ready_keeps repaired s
  have hjail : s2.vals.map (fun v => (v.addr, v.jailed)) = s.vals.map (fun v => (v.addr, v.jailed)) := by
    rw [← r1]
    have := congrArg (List.map fun x : List Nat × Bool × Nat => (x.1, x.2.1)) b1
    rw [List.map_map, List.map_map] at this
    exact this
  have haddr : s2.vals.map Val.addr = s.vals.map Val.addr := by
    have := congrArg (List.map Prod.fst) hjail
    rw [List.map_map, List.map_map] at this
    exact this
  have hu2 := unique_of_addrs haddr hu
  obtain ⟨ws, hws, _, hwf⟩ := resetAll_repaired allow s2.vals.reverse s2.vals
    (fun u hu' => find_of_mem (List.mem_reverse.1 hu'))
  have hm : (v.addr, v.jailed) ∈ s2.vals.map (fun v => (v.addr, v.jailed)) := by
    rw [hjail]
    exact List.mem_map.2 ⟨v, hv, rfl⟩
  obtain ⟨u, hu', e⟩ := List.mem_map.1 hm
  injection e with e1 e2
  have hfu : find u.addr ws = some (reset allow u) := by
    rw [hwf, find_unique hu2 hu', Option.map_some, if_pos]
    exact List.mem_map.2 ⟨u, List.mem_reverse.2 hu', rfl⟩
  have hidx : inIndexJailed s2.vals ws = true := by
    unfold inIndexJailed
    rw [List.any_eq_true]
    refine ⟨u, hu', ?_⟩
    rw [hfu]
    dsimp only [reset]
    rw [e1, e2, hj]
    have h1 : allow.isEmpty = false := by
      cases allow with
      | nil => exact absurd rfl hne
      | cons _ _ => rfl
    have h2 : allow.contains v.addr = false := by
      cases h : allow.contains v.addr with
      | false => rfl
      | true => exact absurd (List.contains_iff_mem.1 h) hn
    rw [h1, h2]
    rfl
  unfold prepare
  rw [if_pos ha]
  dsimp only
  change (match beginAll s.dels (ready repaired s) with
      | none => Out.panics
      | some s2 => _) = _
  rw [hb]
  dsimp only
  rw [← List.map_reverse, hws]
  dsimp only
  rw [hidx]
  rfl

/-! ## The hypotheses are met -/

/-- Two validators, one of them jailed, and two delegations to the other. -/
def sample : State :=
  { vals := [{ addr := List.replicate 20 7, period := 9, outstanding := 5 * one + 3, commission := one + 1, jailed := false,
               unbonding := 0 },
             { addr := List.replicate 20 8, period := 2, outstanding := 4, commission := 0, jailed := true,
               unbonding := 77 }]
    dels := [{ who := 1, val := List.replicate 20 7, reward := one + 5 }, { who := 2, val := List.replicate 20 7, reward := one }]
    refs := fun _ _ => 1, pool := 10, paid := 0, starts := [], reds := [5], ubds := [6], infos := [1, 2] }

theorem sample_unique : Unique sample := by
  unfold Unique sample
  decide

theorem sample_covered : Covered sample := by
  unfold Covered sample
  decide +kernel

example : ∃ s', prepare repaired (fun _ => true) [] sample = .ok s' ∧ s'.paid = 3 * one := by
  obtain ⟨s', h, _⟩ := repaired_partial (readable := fun _ => true) (allow := []) sample_unique rfl (Or.inl rfl)
  exact ⟨s', h, (everyone_is_paid sample_covered h).trans (by decide +kernel)⟩

example : (∀ s', prepare code (fun _ => true) [] sample ≠ .ok s') ∧ prepare code (fun _ => true) [] sample = .panics :=
  ⟨never_exports (by decide) (by decide),
   panics_with_delegations rfl (d := { who := 1, val := List.replicate 20 7, reward := one + 5 }) List.mem_cons_self
     List.mem_cons_self rfl⟩

example : ∃ s', prepare repaired (fun _ => true) [List.replicate 20 7] sample = .ok s' ∧ Fit s' ∧ total s' = total sample := by
  obtain ⟨s', h1, h2, h3, _⟩ := repaired_partial (readable := fun _ => true) (allow := [List.replicate 20 7]) sample_unique rfl
    (Or.inr (by decide))
  exact ⟨s', h1, h2, h3⟩

example : prepare repaired (fun _ => true) [List.replicate 20 8] sample = .panics :=
  leaving_out_panics sample_unique rfl (by decide) List.mem_cons_self rfl (by decide)

/-- What the sample gives: three coins paid, the rest in the community pool. -/
example : (match prepare repaired (fun _ => true) [] sample with
    | .ok s => (s.paid, s.pool, s.starts.map fun x => x.2.2)
    | _ => (0, 0, [])) = (3 * one, 10 + 2 * one + 7, [1, 2]) := by decide +kernel

end ZeroHeight
