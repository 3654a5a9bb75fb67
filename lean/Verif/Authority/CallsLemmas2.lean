import Verif.Authority.CallsLemmas
namespace Authority
variable {W : Type}

theorem room_of_get {s : St W} {a b k l allow deny e} (h : KV.get s.grants (a, b, k) = some ⟨.stake (some l) allow deny, e⟩) :
    room s a b k = l.amount := by unfold room; rw [h]

theorem room_of_none {s : St W} {a b k} (h : KV.get s.grants (a, b, k) = none) : room s a b k = 0 := by unfold room; rw [h]

theorem room_congr {s s' : St W} {a b k} (h : KV.get s'.grants (a, b, k) = KV.get s.grants (a, b, k)) : room s' a b k = room s a b k := by
  unfold room; rw [h]

theorem limited_congr {s s' : St W} {a b k} (h : KV.get s'.grants (a, b, k) = KV.get s.grants (a, b, k)) (hl : Limited s a b k) :
    Limited s' a b k := by
  intro g hg; rw [h] at hg; exact hl g hg

/-- The bound to be kept: what can be moved afterwards is at most what could be moved before and `n` more, and limits stay. -/
def Bound (s s' : St W) (a b : Addr) (k : Kind) (n : Nat) : Prop := Limited s' a b k ∧ room s' a b k ≤ room s a b k + n

theorem bound_same {s s' : St W} {a b k n} (h : KV.get s'.grants (a, b, k) = KV.get s.grants (a, b, k)) (hl : Limited s a b k) :
    Bound s s' a b k n := ⟨limited_congr h hl, by rw [room_congr h]; omega⟩

theorem get_save {s s' : St W} {a b k g} (h : saveGrant s a b k g = some s') : KV.get s'.grants (a, b, k) = some g := by
  rw [saveGrant_eq h]; show KV.get (KV.set _ _ _) _ = _; rw [KV.get_set, if_pos rfl]

theorem get_delete {s s' : St W} {a b k} (h : deleteGrant s a b k = some s') : KV.get s'.grants (a, b, k) = none := by
  rw [deleteGrant_eq h]; show KV.get (KV.del _ _) _ = _; rw [KV.get_del, if_pos rfl]

theorem not_unlimited {l allow deny e} : ¬ Unlimited ⟨.stake (some l) allow deny, e⟩ := by
  rintro ⟨_, _, h⟩; cases h

theorem bound_save {s s' : St W} {a b k l allow deny e n} (h : saveGrant s a b k ⟨.stake (some l) allow deny, e⟩ = some s')
    (hn : l.amount ≤ room s a b k + n) : Bound s s' a b k n := by
  refine ⟨fun g hg => ?_, by rw [room_of_get (get_save h)]; exact hn⟩
  rw [get_save h] at hg
  cases hg
  exact not_unlimited

theorem bound_delete {s s' : St W} {a b k n} (h : deleteGrant s a b k = some s') : Bound s s' a b k n :=
  ⟨fun g hg => (by rw [get_delete h] at hg; cases hg), by rw [room_of_none (get_delete h)]; omega⟩

/-- Bounds add up over the kinds of a call. -/
theorem forKinds_bound {f : St W → Kind → Option (St W)} {a b : Addr} {k : Kind} {n : Nat} :
    ∀ (ks : List Kind) (s s' : St W),
      (∀ s k' s', k' ∈ ks → f s k' = some s' → Limited s a b k → Bound s s' a b k (if k' = k then n else 0)) →
      forKinds f ks s = some s' → Limited s a b k → Bound s s' a b k (n * ks.count k) := by
  intro ks
  induction ks with
  | nil => intro s s' _ h hl; cases h; exact ⟨hl, by omega⟩
  | cons k' ks ih =>
    intro s s' hf h hl
    unfold forKinds at h
    cases hx : f s k' with
    | none => rw [hx] at h; cases h
    | some s₁ =>
      rw [hx] at h
      dsimp only at h
      obtain ⟨h1, h2⟩ := hf s k' s₁ List.mem_cons_self hx hl
      obtain ⟨h3, h4⟩ := ih s₁ s' (fun s k'' s' hm => hf s k'' s' (List.mem_cons_of_mem _ hm)) h h1
      refine ⟨h3, ?_⟩
      rw [List.count_cons]
      by_cases hk : k' = k
      · rw [if_pos hk] at h2
        rw [if_pos (by rw [hk]; exact beq_self_eq_true k), Nat.mul_add, Nat.mul_one]
        omega
      · rw [if_neg hk] at h2
        rw [if_neg (by intro hb; exact hk (eq_of_beq hb)), Nat.add_zero]
        omega

theorem grantOrDelete_bound {c : Chain W} {s s' : St W} {a b k n} (h : grantOrDelete c s a b (some n) k = some s') : Bound s s' a b k n := by
  unfold grantOrDelete at h
  cases n with
  | zero => exact bound_delete h
  | succ m =>
    have := (createGrant_save h).2
    exact bound_save this (by show m + 1 ≤ _; omega)

theorem decrease_bound {s s' : St W} {a b n k} (h : decrease s a b n k = some s') (hl : Limited s a b k) : Bound s s' a b k 0 := by
  rcases decrease_cases h with rfl | ⟨g, l, allow, deny, m, hg, ha, _, hm, h'⟩
  · exact ⟨hl, by omega⟩
  · refine bound_save h' ?_
    obtain ⟨au, ex⟩ := g
    cases ha
    rw [room_of_get hg]
    show l.amount - m ≤ _
    omega

theorem increase_bound {s s' : St W} {a b n k} (h : increase s a b n k = some s') (hl : Limited s a b k) :
    Bound s s' a b k (n.getD 0) := by
  rcases (increase_cases h).2 with rfl | ⟨g, l, allow, deny, m, hg, ha, rfl, h'⟩
  · exact ⟨hl, by omega⟩
  · refine bound_save h' ?_
    obtain ⟨au, ex⟩ := g
    cases ha
    rw [room_of_get hg]
    show l.amount + m ≤ _ + m
    omega

/-- Calls that manage grants keep the bound. -/
theorem manage_bound {c : Chain W} {s s' : St W} {a b o b' : Addr} {k : Kind} {m : Method} {g ks} (hm : manages m = some (g, ks))
    (hgl : gives_limit a b k (W := W) (.call o b' m)) (h : call c s o b' m = some s') (hl : Limited s a b k) :
    Bound s s' a b k (allowed c s a b k (.call o b' m)) := by
  have honly := (manage_only hm h).2.2.2
  by_cases hx : o = a ∧ g = b ∧ k ∈ ks
  case neg => exact bound_same (honly a b k (fun hc => hx ⟨hc.1.symm, hc.2.1.symm, hc.2.2⟩)) hl
  obtain ⟨rfl, rfl, hk⟩ := hx
  have other : ∀ {s s' : St W} {k' n}, OnlyGrant s s' o g k' → k' ≠ k → Limited s o g k → Bound s s' o g k n := by
    intro s s' k' n ho hne hl
    exact bound_same (ho.2.2 o g k (fun hc => hne (by cases hc; rfl))) hl
  cases m <;> try (cases hm; done)
  case approve g' n ks' =>
    cases hm
    unfold call at h
    dsimp only at h
    by_cases hks : ks = []
    · rw [if_pos hks] at h; cases h
    rw [if_neg hks] at h
    cases n with
    | none => exact absurd ⟨rfl, rfl, hk⟩ hgl
    | some n =>
      have hal : allowed c s o g k (.call o b' (.approve g (some n) ks)) = n * ks.count k := by
        unfold allowed
        dsimp only
        rw [if_pos ⟨by unfold call; dsimp only; rw [if_neg hks, h]; rfl, rfl, rfl⟩]
      rw [hal]
      refine forKinds_bound ks s s' ?_ h hl
      intro s k' s' _ hf hl
      by_cases hkk : k' = k
      · rw [if_pos hkk]; subst hkk; exact grantOrDelete_bound hf
      · exact other (grantOrDelete_only hf) hkk hl
  case revoke g' ks' =>
    cases hm
    unfold call at h
    dsimp only at h
    by_cases hks : ks = []
    · rw [if_pos hks] at h; cases h
    rw [if_neg hks] at h
    have := forKinds_bound (n := 0) (a := o) (b := g) (k := k) ks s s' (by
      intro s k' s' _ hf hl
      by_cases hkk : k' = k
      · subst hkk; exact bound_delete hf
      · exact other (deleteGrant_only hf) hkk hl) h hl
    exact ⟨this.1, by have := this.2; omega⟩
  case increaseAllowance g' n ks' =>
    cases hm
    unfold call at h
    dsimp only at h
    by_cases hks : ks = []
    · rw [if_pos hks] at h; cases h
    rw [if_neg hks] at h
    have := forKinds_bound (n := n.getD 0) (a := o) (b := g) (k := k) ks s s' (by
      intro s k' s' _ hf hl
      by_cases hkk : k' = k
      · rw [if_pos hkk]; subst hkk; exact increase_bound hf hl
      · exact other (increase_only hf) hkk hl) h hl
    cases n with
    | none => exact ⟨this.1, by have := this.2; show _ ≤ _ + 0; rw [Option.getD_none] at this; omega⟩
    | some n =>
      have hal : allowed c s o g k (.call o b' (.increaseAllowance g (some n) ks)) = n * ks.count k := by
        unfold allowed
        dsimp only
        rw [if_pos ⟨by unfold call; dsimp only; rw [if_neg hks, h]; rfl, rfl, rfl⟩]
      rw [hal]
      exact this
  case decreaseAllowance g' n ks' =>
    cases hm
    unfold call at h
    dsimp only at h
    by_cases hks : ks = []
    · rw [if_pos hks] at h; cases h
    rw [if_neg hks] at h
    have := forKinds_bound (n := 0) (a := o) (b := g) (k := k) ks s s' (by
      intro s k' s' _ hf hl
      by_cases hkk : k' = k
      · rw [if_pos hkk]; subst hkk; exact decrease_bound hf hl
      · exact other (decrease_only hf) hkk hl) h hl
    exact ⟨this.1, by have := this.2; omega⟩

/-- Calls that move stake keep the bound, with what they move. -/
theorem stake_bound {c : Chain W} {s s' : St W} {a b o b' : Addr} {k : Kind} {m : Method} (hab : b ≠ a) {k' d v coin}
    (hm : moves c m = some (k', d, v, coin)) (h : call c s o b' m = some s') (hl : Limited s a b k) :
    Limited s' a b k ∧ moved c s a b k (.call o b' m) + room s' a b k ≤ room s a b k := by
  obtain ⟨msg, _, _, hs⟩ := call_moves hm h
  obtain ⟨hor, hc⟩ := stakeCall_cases hs
  have hmv : moved c s a b k (.call o b' m) = if b' = b ∧ k' = k ∧ d = a then coin.amount else 0 := by
    unfold moved
    dsimp only
    rw [hm]
    dsimp only
    rw [h]
    by_cases hx : b' = b ∧ k' = k ∧ d = a
    · rw [if_pos hx, if_pos ⟨rfl, hx⟩]
    · rw [if_neg hx, if_neg (fun hc => hx hc.2)]
  rcases hc with ⟨hbo, hr⟩ | ⟨hbo, hr⟩
  · obtain ⟨w, _, rfl⟩ := runMsg_eq hr
    refine ⟨hl, ?_⟩
    rw [hmv, if_neg]
    · show 0 + room s a b k ≤ _; omega
    · rintro ⟨rfl, _, rfl⟩
      rcases hor with e | e
      · exact hab e
      · exact hab (hbo.trans e)
  · obtain ⟨g, limit, allow, deny, w, hg, _, hau, _, _, ha⟩ := stakeWithGrant_cases hr
    by_cases hx : (a, b, k) = (o, b', k')
    · cases hx
      obtain ⟨au, ex⟩ := g
      cases hau
      have hle : moved c s a b k (.call a b m) ≤ coin.amount := by
        rw [hmv]
        split
        · exact Nat.le_refl _
        · exact Nat.zero_le _
      rcases (accept_cases ha).2 with ⟨rfl, _⟩ | ⟨l, rfl, _, he, hd⟩ | ⟨l, rfl, _, he, hsv⟩
      · exact absurd ⟨_, _, rfl⟩ (hl _ hg)
      · have hb := bound_delete (n := 0) hd
        rw [room_of_get hg]
        exact ⟨hb.1, by rw [room_of_none (get_delete hd)]; omega⟩
      · rw [room_of_get hg, room_of_get (get_save hsv)]
        refine ⟨fun g' hg' => ?_, by show _ + (l.amount - coin.amount) ≤ _; omega⟩
        rw [get_save hsv] at hg'
        cases hg'
        exact not_unlimited
    · have hsame := (accept_only ha).2.2 a b k hx
      refine ⟨limited_congr hsame hl, ?_⟩
      rw [room_congr hsame, hmv, if_neg]
      · show 0 + room s a b k ≤ _; omega
      · rintro ⟨rfl, rfl, rfl⟩
        rcases hor with e | e
        · exact hab e
        · exact hx (by rw [e])

/-- Every operation keeps the bound. -/
theorem step_bound {c : Chain W} {s : St W} {a b : Addr} {k : Kind} (hab : b ≠ a) (op : Op W) (hgl : gives_limit a b k op)
    (hl : Limited s a b k) :
    Limited (next c s op) a b k ∧ moved c s a b k op + room (next c s op) a b k ≤ room s a b k + allowed c s a b k op := by
  unfold next
  cases op with
  | other w => exact ⟨hl, by show 0 + room s a b k ≤ _; omega⟩
  | tick dt => exact ⟨hl, by show 0 + room s a b k ≤ _; omega⟩
  | revoke a' b' k' =>
    show Limited ((deleteGrant s a' b' k').getD s) a b k ∧ 0 + room ((deleteGrant s a' b' k').getD s) a b k ≤ _
    cases hd : deleteGrant s a' b' k' with
    | none => exact ⟨hl, by show 0 + room s a b k ≤ _; omega⟩
    | some s' =>
      show Limited s' a b k ∧ 0 + room s' a b k ≤ _
      by_cases hx : (a, b, k) = (a', b', k')
      · cases hx
        have := bound_delete (n := 0) hd
        exact ⟨this.1, by have := this.2; omega⟩
      · have := (deleteGrant_only hd).2.2 a b k hx
        exact ⟨limited_congr this hl, by rw [room_congr this]; omega⟩
  | grant a' b' k' g =>
    show Limited ((saveGrant s a' b' k' g).getD s) a b k ∧ 0 + room ((saveGrant s a' b' k' g).getD s) a b k ≤ _
    cases hd : saveGrant s a' b' k' g with
    | none => exact ⟨hl, by show 0 + room s a b k ≤ _; omega⟩
    | some s' =>
      show Limited s' a b k ∧ 0 + room s' a b k ≤ _
      by_cases hx : (a, b, k) = (a', b', k')
      · cases hx
        obtain ⟨au, ex⟩ := g
        have hnu : ¬ Unlimited ⟨au, ex⟩ := hgl ⟨rfl, rfl, rfl⟩
        refine ⟨fun g' hg' => by rw [get_save hd] at hg'; cases hg'; exact hnu, ?_⟩
        have hget := get_save hd
        cases au with
        | generic => unfold room; rw [hget]; dsimp only; omega
        | stake limit allow deny =>
          cases limit with
          | none => exact absurd ⟨_, _, rfl⟩ hnu
          | some l =>
            rw [room_of_get hget]
            show 0 + l.amount ≤ room s a b k + (if a = a ∧ b = b ∧ k = k then l.amount else 0)
            rw [if_pos ⟨rfl, rfl, rfl⟩]
            omega
      · have := (saveGrant_only hd).2.2 a b k hx
        exact ⟨limited_congr this hl, by rw [room_congr this]; omega⟩
  | call o b' m =>
    show Limited ((call c s o b' m).getD s) a b k ∧ _ + room ((call c s o b' m).getD s) a b k ≤ _
    cases hc : call c s o b' m with
    | none =>
      have hm0 : moved c s a b k (.call o b' m) = 0 := by
        unfold moved
        dsimp only
        rw [hc]
        split
        · exact if_neg (fun hx => by cases hx.1)
        · rfl
      exact ⟨hl, by rw [hm0]; show 0 + room s a b k ≤ _; omega⟩
    | some s' =>
      show Limited s' a b k ∧ _ + room s' a b k ≤ _
      cases hm : moves c m with
      | some q =>
        obtain ⟨k', d, v, coin⟩ := q
        have := stake_bound hab hm hc hl
        exact ⟨this.1, Nat.le_trans this.2 (Nat.le_add_right _ _)⟩
      | none =>
        have hm0 : moved c s a b k (.call o b' m) = 0 := by
          unfold moved
          dsimp only
          rw [hm]
        rw [hm0]
        cases hg : manages m with
        | some q =>
          obtain ⟨g, ks⟩ := q
          have := manage_bound hg hgl hc hl
          exact ⟨this.1, by have := this.2; omega⟩
        | none =>
          have := call_keeps_grants hg hm hc
          have hsame : KV.get s'.grants (a, b, k) = KV.get s.grants (a, b, k) := by rw [this]
          exact ⟨limited_congr hsame hl, by rw [room_congr hsame]; omega⟩

theorem run_bound {c : Chain W} {a b : Addr} {k : Kind} (hab : b ≠ a) :
    ∀ (ops : List (Op W)) (s : St W), (∀ op ∈ ops, gives_limit a b k op) → Limited s a b k →
      total (fun s op => moved c s a b k op) c s ops + room (run c s ops) a b k
        ≤ room s a b k + total (fun s op => allowed c s a b k op) c s ops := by
  intro ops
  induction ops with
  | nil => intro s _ _; show 0 + room s a b k ≤ room s a b k + 0; omega
  | cons op ops ih =>
    intro s hg hl
    obtain ⟨h1, h2⟩ := step_bound (c := c) hab op (hg op List.mem_cons_self) hl
    have h3 := ih (next c s op) (fun op' hm => hg op' (List.mem_cons_of_mem _ hm)) h1
    show moved c s a b k op + total _ c (next c s op) ops + room (run c (next c s op) ops) a b k
      ≤ room s a b k + (allowed c s a b k op + total _ c (next c s op) ops)
    omega

theorem increase_get {s s' : St W} {a b n k} (h : increase s a b n k = some s') :
    ∃ limit allow deny e, KV.get s.grants (a, b, k) = some ⟨.stake limit allow deny, e⟩ ∧
      KV.get s'.grants (a, b, k) = some ⟨.stake (limit.map (fun l => ⟨l.denom, l.amount + n.getD 0⟩)) allow deny, e⟩ := by
  have hc := h
  unfold increase at hc
  by_cases hk : k = .cancel
  · rw [if_pos hk] at hc; cases hc
  rw [if_neg hk] at hc
  cases hg : live s a b k with
  | none => rw [hg] at hc; cases hc
  | some g =>
    rw [hg] at hc
    dsimp only at hc
    have hget := (live_get hg).1
    obtain ⟨au, ex⟩ := g
    cases au with
    | generic => cases hc
    | stake limit allow deny =>
      cases limit with
      | none => cases hc; exact ⟨none, allow, deny, ex, hget, hget⟩
      | some l =>
        cases n with
        | none => cases hc
        | some m => exact ⟨some l, allow, deny, ex, hget, get_save hc⟩

theorem decrease_get {s s' : St W} {a b n k} (h : decrease s a b n k = some s') :
    ∃ limit allow deny e, KV.get s.grants (a, b, k) = some ⟨.stake limit allow deny, e⟩ ∧
      (∀ l, limit = some l → n.getD 0 ≤ l.amount) ∧
      KV.get s'.grants (a, b, k) = some ⟨.stake (limit.map (fun l => ⟨l.denom, l.amount - n.getD 0⟩)) allow deny, e⟩ := by
  have hc := h
  unfold decrease at hc
  cases hg : live s a b k with
  | none => rw [hg] at hc; cases hc
  | some g =>
    rw [hg] at hc
    dsimp only at hc
    have hget := (live_get hg).1
    obtain ⟨au, ex⟩ := g
    cases au with
    | generic => cases hc
    | stake limit allow deny =>
      cases limit with
      | none => cases hc; exact ⟨none, allow, deny, ex, hget, (fun _ h => nomatch h), hget⟩
      | some l =>
        cases n with
        | none => cases hc
        | some m =>
          dsimp only at hc
          by_cases hlt : l.amount < m
          · rw [if_pos hlt] at hc; cases hc
          · rw [if_neg hlt] at hc
            exact ⟨some l, allow, deny, ex, hget, fun l' hl => by cases hl; show m ≤ _; omega, get_save hc⟩

/-- A relation between the entry of a kind before and after holds over a loop that names the kind once. -/
theorem forKinds_once {f : St W → Kind → Option (St W)} {a b : Addr} {k : Kind} {R : Option Grant → Option Grant → Prop}
    (honly : ∀ s k' s', f s k' = some s' → OnlyGrant s s' a b k') {now : Nat} {w : W}
    (hR : ∀ s s', s.now = now → s.world = w → f s k = some s' → R (KV.get s.grants (a, b, k)) (KV.get s'.grants (a, b, k))) :
    ∀ (ks : List Kind) (s s' : St W), s.now = now → s.world = w → ks.count k = 1 → forKinds f ks s = some s' →
      R (KV.get s.grants (a, b, k)) (KV.get s'.grants (a, b, k)) := by
  intro ks
  induction ks with
  | nil => intro s s' _ _ hc; cases hc
  | cons k' ks ih =>
    intro s s' hn hw hc h
    unfold forKinds at h
    cases hx : f s k' with
    | none => rw [hx] at h; cases h
    | some s₁ =>
      rw [hx] at h
      dsimp only at h
      have ho := honly s k' s₁ hx
      rw [List.count_cons] at hc
      by_cases hk : k' = k
      · subst hk
        rw [if_pos (beq_self_eq_true k')] at hc
        have hnm : k' ∉ ks := List.count_eq_zero.mp (by omega)
        rw [(forKinds_only honly ks s₁ s' h).2.2 a b k' (fun hcc => hnm hcc.2.2)]
        exact hR s s₁ hn hw hx
      · rw [if_neg (by intro hb; exact hk (eq_of_beq hb)), Nat.add_zero] at hc
        rw [← ho.2.2 a b k (fun hcc => hk (by cases hcc; rfl))]
        exact ih s₁ s' (ho.1.trans hn) (ho.2.1.trans hw) hc h

end Authority
