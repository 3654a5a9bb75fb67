import Verif.Erc20.Registry
/-!
# The registry is a bijection (C39)
-/
namespace Erc20

theorem upd_self {α β : Type} [DecidableEq α] (f : α → β) (a : α) (b : β) : upd f a b a = b := if_pos rfl
theorem upd_ne {α β : Type} [DecidableEq α] (f : α → β) {a x : α} (b : β) (h : x ≠ a) : upd f a b x = f x := if_neg h

theorem append_bar {a b c d : Str} (ha : '|' ∉ a) (hb : '|' ∉ b) (h : a ++ '|' :: c = b ++ '|' :: d) : a = b ∧ c = d := by
  induction a generalizing b with
  | nil =>
    cases b with
    | nil => exact ⟨rfl, (List.cons.inj h).2⟩
    | cons y b => exact absurd ((List.cons.inj h).1 ▸ List.mem_cons_self) hb
  | cons x a ih =>
    cases b with
    | nil => exact absurd ((List.cons.inj h).1 ▸ List.mem_cons_self) ha
    | cons y b =>
      obtain ⟨h1, h2⟩ := List.cons.inj h
      obtain ⟨h3, h4⟩ := ih (fun hm => ha (List.mem_cons_of_mem _ hm)) (fun hm => hb (List.mem_cons_of_mem _ hm)) h2
      exact ⟨by rw [h1, h3], h4⟩

/-- What is hashed determines address and denomination. -/
theorem preimage_injective (x : Hex) {p q : Pair} (hp : (x.parse p.erc20).isSome = true) (hq : (x.parse q.erc20).isSome = true)
    (h : p.preimage = q.preimage) : p.erc20 = q.erc20 ∧ p.denom = q.denom :=
  append_bar (x.no_bar _ hp) (x.no_bar _ hq) h

/-- The hash does not collide on the strings that are hashed for these pairs. -/
def NoCollision (e : Env) (pool : List Pair) : Prop :=
  ∀ p ∈ pool, ∀ q ∈ pool, e.H p.preimage = e.H q.preimage → p.preimage = q.preimage

/-- The three stores agree. -/
structure Inv (e : Env) (pool : List Pair) (s : State) : Prop where
  known : ∀ i p, s.pairs i = some p → p.id e.H = i ∧ (∃ q ∈ pool, q.preimage = p.preimage) ∧ (e.x.parse p.erc20).isSome = true ∧
    s.byErc (p.contract e.x) = some i ∧ s.byDenom p.denom = some i
  erc : ∀ a i, s.byErc a = some i → ∃ p, s.pairs i = some p ∧ p.contract e.x = a
  denom : ∀ d i, s.byDenom d = some i → ∃ p, s.pairs i = some p ∧ p.denom = d
  desc : ∀ d i, s.byDenom d = some i → d ∈ s.described ∨ 32 < d.length

theorem setToken_inv {e : Env} {pool : List Pair} {s : State} (hc : NoCollision e pool) (h : Inv e pool s) {p : Pair}
    (hp : p ∈ pool) (hx : (e.x.parse p.erc20).isSome = true) (h1 : s.byErc (p.contract e.x) = none) (h2 : s.byDenom p.denom = none)
    (h3 : p.denom ∈ s.described ∨ 32 < p.denom.length) : Inv e pool (setToken e s p) := by
  have hnone : s.pairs (p.id e.H) = none := by
    cases hq : s.pairs (p.id e.H) with
    | none => rfl
    | some q =>
      obtain ⟨k1, ⟨r, hr, k2⟩, k3, _, k5⟩ := h.known _ _ hq
      have : r.preimage = p.preimage := hc r hr p hp (by rw [k2]; exact k1)
      rw [k2] at this
      have hd := (preimage_injective e.x k3 hx this).2
      rw [hd, h2] at k5
      cases k5
  constructor
  · intro i q hq
    dsimp only [setToken] at hq ⊢
    by_cases hi : i = p.id e.H
    · subst hi
      rw [upd_self] at hq
      cases hq
      rw [upd_self, upd_self]
      exact ⟨rfl, ⟨p, hp, rfl⟩, hx, rfl, rfl⟩
    · rw [upd_ne _ _ hi] at hq
      obtain ⟨k1, k2, k3, k4, k5⟩ := h.known _ _ hq
      have n1 : q.contract e.x ≠ p.contract e.x := fun he => by rw [he, h1] at k4; cases k4
      have n2 : q.denom ≠ p.denom := fun he => by rw [he, h2] at k5; cases k5
      rw [upd_ne _ _ n1, upd_ne _ _ n2]
      exact ⟨k1, k2, k3, k4, k5⟩
  · intro a i ha
    dsimp only [setToken] at ha ⊢
    by_cases he : a = p.contract e.x
    · subst he
      rw [upd_self] at ha
      cases ha
      exact ⟨p, upd_self _ _ _, rfl⟩
    · rw [upd_ne _ _ he] at ha
      obtain ⟨q, hq, hqa⟩ := h.erc _ _ ha
      have hi : i ≠ p.id e.H := fun hi => by rw [hi, hnone] at hq; cases hq
      exact ⟨q, by rw [upd_ne _ _ hi]; exact hq, hqa⟩
  · intro d i hd
    dsimp only [setToken] at hd ⊢
    by_cases he : d = p.denom
    · subst he
      rw [upd_self] at hd
      cases hd
      exact ⟨p, upd_self _ _ _, rfl⟩
    · rw [upd_ne _ _ he] at hd
      obtain ⟨q, hq, hqa⟩ := h.denom _ _ hd
      have hi : i ≠ p.id e.H := fun hi => by rw [hi, hnone] at hq; cases hq
      exact ⟨q, by rw [upd_ne _ _ hi]; exact hq, hqa⟩
  · intro d i hd
    dsimp only [setToken] at hd ⊢
    by_cases he : d = p.denom
    · rw [he]; exact h3
    · rw [upd_ne _ _ he] at hd
      exact h.desc _ _ hd

theorem describe_inv {e : Env} {pool : List Pair} {s : State} (h : Inv e pool s) (d : Str) :
    Inv e pool { s with described := d :: s.described } :=
  ⟨h.1, h.2, h.3, fun x i hx => (h.4 x i hx).imp (List.mem_cons_of_mem _) id⟩

theorem toggle_inv {e : Env} {pool : List Pair} {s : State} (h : Inv e pool s) {i : Nat} {p : Pair} (hp : s.pairs i = some p)
    (b : Bool) : Inv e pool { s with pairs := upd s.pairs (p.id e.H) (some { p with enabled := b }) } := by
  obtain ⟨k1, k2, k3, k4, k5⟩ := h.known _ _ hp
  subst k1
  constructor
  · intro j q hq
    dsimp only at hq ⊢
    by_cases hj : j = p.id e.H
    · subst hj
      rw [upd_self] at hq
      cases hq
      exact ⟨rfl, k2, k3, k4, k5⟩
    · rw [upd_ne _ _ hj] at hq
      exact h.known _ _ hq
  · intro a j ha
    obtain ⟨q, hq, hqa⟩ := h.erc _ _ ha
    dsimp only
    by_cases hj : j = p.id e.H
    · subst hj
      rw [hp] at hq
      cases hq
      exact ⟨_, upd_self _ _ _, hqa⟩
    · exact ⟨q, by rw [upd_ne _ _ hj]; exact hq, hqa⟩
  · intro d j hd
    obtain ⟨q, hq, hqa⟩ := h.denom _ _ hd
    dsimp only
    by_cases hj : j = p.id e.H
    · subst hj
      rw [hp] at hq
      cases hq
      exact ⟨_, upd_self _ _ _, hqa⟩
    · exact ⟨q, by rw [upd_ne _ _ hj]; exact hq, hqa⟩
  · exact h.4

theorem delete_inv {e : Env} {pool : List Pair} {s : State} (h : Inv e pool s) {i : Nat} {p : Pair} (hp : s.pairs i = some p) :
    Inv e pool (deletePair e s p) := by
  obtain ⟨k1, k2, k3, k4, k5⟩ := h.known _ _ hp
  subst k1
  constructor
  · intro j q hq
    dsimp only [deletePair] at hq ⊢
    by_cases hj : j = p.id e.H
    · subst hj
      rw [upd_self] at hq
      cases hq
    · rw [upd_ne _ _ hj] at hq
      obtain ⟨m1, m2, m3, m4, m5⟩ := h.known _ _ hq
      have n1 : q.contract e.x ≠ p.contract e.x := fun he => by
        rw [he, k4] at m4; exact hj (Option.some.inj m4).symm
      have n2 : q.denom ≠ p.denom := fun he => by
        rw [he, k5] at m5; exact hj (Option.some.inj m5).symm
      rw [upd_ne _ _ n1, upd_ne _ _ n2]
      exact ⟨m1, m2, m3, m4, m5⟩
  · intro a j ha
    dsimp only [deletePair] at ha ⊢
    by_cases he : a = p.contract e.x
    · subst he
      rw [upd_self] at ha
      cases ha
    · rw [upd_ne _ _ he] at ha
      obtain ⟨q, hq, hqa⟩ := h.erc _ _ ha
      have hj : j ≠ p.id e.H := fun hj => by
        rw [hj, hp] at hq
        cases hq
        exact he hqa.symm
      exact ⟨q, by rw [upd_ne _ _ hj]; exact hq, hqa⟩
  · intro d j hd
    dsimp only [deletePair] at hd ⊢
    by_cases he : d = p.denom
    · subst he
      rw [upd_self] at hd
      cases hd
    · rw [upd_ne _ _ he] at hd
      obtain ⟨q, hq, hqa⟩ := h.denom _ _ hd
      have hj : j ≠ p.id e.H := fun hj => by
        rw [hj, hp] at hq
        cases hq
        exact he hqa.symm
      exact ⟨q, by rw [upd_ne _ _ hj]; exact hq, hqa⟩
  · intro d j hd
    dsimp only [deletePair] at hd
    by_cases he : d = p.denom
    · subst he
      rw [upd_self] at hd
      cases hd
    · rw [upd_ne _ _ he] at hd
      exact h.desc _ _ hd

theorem findPair_some {e : Env} {s : State} {t : Str} {p : Pair} (h : findPair e s t = some p) : ∃ i, s.pairs i = some p := by
  unfold findPair at h
  cases hi : pairId e s t with
  | none => rw [hi] at h; cases h
  | some i => rw [hi] at h; exact ⟨i, h⟩

/-- If the denomination is not written like an address and no pair is found, it is not registered. -/
theorem findPair_none {e : Env} {pool : List Pair} {s : State} (h : Inv e pool s) {d : Str} (hx : e.x.parse d = none)
    (hf : findPair e s d = none) : s.byDenom d = none := by
  unfold findPair pairId at hf
  rw [hx] at hf
  dsimp only at hf
  cases hd : s.byDenom d with
  | none => rfl
  | some i =>
    obtain ⟨q, hq, _⟩ := h.denom _ _ hd
    rw [hd] at hf
    have : s.pairs i = none := hf
    rw [hq] at this
    cases this

/-- The pair an operation may register. -/
def candidate (e : Env) : Op → Option Pair
  | .register a _ => some ⟨e.x.print a, erc20Denom e.x a, true, .external⟩
  | .create d a => some ⟨e.x.print a, d, true, .module⟩
  | .bridge d a => some ⟨e.x.print a, d, true, .module⟩
  | .voucher d => (e.ibcAddr d).map (fun a => ⟨e.x.print a, d, true, .module⟩)
  | _ => none

/-- What the environment guarantees: contracts are deployed at addresses that are not registered, the address of a voucher is not
registered for something else, and denominations of the bridge and of IBC are not written like addresses (those of IBC
have 68 characters). -/
def Fresh (e : Env) (s : State) : Op → Prop
  | .create _ a => s.byErc a = none
  | .bridge d a => s.byErc a = none ∧ e.x.parse d = none
  | .voucher d => e.x.parse d = none ∧ 32 < d.length ∧ ∀ a, e.ibcAddr d = some a → findPair e s d = none → s.byErc a = none
  | _ => True

theorem contract_print (e : Env) (a : Nat) (d : Str) (b : Bool) (o : Owner) :
    Pair.contract e.x ⟨e.x.print a, d, b, o⟩ = a := by
  unfold Pair.contract
  rw [e.x.parse_print]
  rfl

theorem step_inv {e : Env} {pool : List Pair} {s : State} (hc : NoCollision e pool) (h : Inv e pool s) {op : Op}
    (hp : ∀ p, candidate e op = some p → p ∈ pool) (hf : Fresh e s op) : Inv e pool (step e s op) := by
  cases op with
  | register a ok =>
    show Inv e pool (register e s a ok)
    unfold register
    split
    · exact h
    rename_i h1
    split
    · exact h
    split
    · exact h
    rename_i h3
    split
    · exact h
    rename_i h4
    refine setToken_inv hc (describe_inv h _) (hp _ rfl) (by rw [e.x.parse_print]; rfl) ?_ ?_ ?_
    · rw [contract_print]
      cases hx : s.byErc a with
      | none => rfl
      | some i => rw [hx] at h1; exact absurd rfl h1
    · dsimp only
      cases hx : s.byDenom (erc20Denom e.x a) with
      | none => rfl
      | some i => rw [hx] at h4; exact absurd rfl h4
    · exact .inl List.mem_cons_self
  | create d a =>
    show Inv e pool (createToken e s d a)
    unfold createToken
    split
    · exact h
    rename_i h1
    split
    · exact h
    rename_i h2
    refine setToken_inv hc (describe_inv h _) (hp _ rfl) (by rw [e.x.parse_print]; rfl) ?_ ?_ ?_
    · rw [contract_print]; exact hf
    · dsimp only
      cases hx : s.byDenom d with
      | none => rfl
      | some i =>
        rcases h.desc _ _ hx with hd | hd
        · exact absurd hd h2
        · exact absurd hd h1
    · exact .inl List.mem_cons_self
  | bridge d a =>
    show Inv e pool (bridgeToken e s d a)
    unfold bridgeToken
    split
    · exact h
    rename_i h1
    refine setToken_inv hc (describe_inv h _) (hp _ rfl) (by rw [e.x.parse_print]; rfl) ?_ ?_ ?_
    · rw [contract_print]; exact hf.1
    · exact findPair_none h hf.2 h1
    · exact .inl List.mem_cons_self
  | voucher d =>
    show Inv e pool (receiveVoucher e s d)
    unfold receiveVoucher
    split
    · exact h
    rename_i h1
    split
    · exact h
    rename_i a ha
    refine setToken_inv hc h (hp _ (by show (e.ibcAddr d).map _ = _; rw [ha]; rfl)) (by rw [e.x.parse_print]; rfl) ?_ ?_ ?_
    · rw [contract_print]; exact hf.2.2 a ha h1
    · exact findPair_none h hf.1 h1
    · exact .inr hf.2.1
  | toggle t =>
    show Inv e pool (toggle e s t)
    unfold toggle
    split
    · exact h
    · rename_i p hp
      obtain ⟨i, hi⟩ := findPair_some hp
      exact toggle_inv h hi _
  | convertDead t =>
    show Inv e pool (convertDead e s t)
    unfold convertDead
    split
    · exact h
    · rename_i p hp
      split
      · obtain ⟨i, hi⟩ := findPair_some hp
        exact delete_inv h hi
      · exact h
  | describe d => exact describe_inv h d

/-- The environment keeps its guarantees along the history. -/
def FreshRun (e : Env) : State → List Op → Prop
  | _, [] => True
  | s, op :: ops => Fresh e s op ∧ FreshRun e (step e s op) ops

theorem run_inv {e : Env} {pool : List Pair} {s : State} (hc : NoCollision e pool) (h : Inv e pool s) {ops : List Op}
    (hp : ∀ op ∈ ops, ∀ p, candidate e op = some p → p ∈ pool) (hf : FreshRun e s ops) : Inv e pool (run e s ops) := by
  induction ops generalizing s with
  | nil => exact h
  | cons op ops ih =>
    exact ih (step_inv hc h (hp op List.mem_cons_self) hf.1) (fun o ho => hp o (List.mem_cons_of_mem _ ho)) hf.2

theorem inv_bijective {e : Env} {pool : List Pair} {s : State} (h : Inv e pool s) (a : Nat) (d : Str) :
    tokenDenom s a = some d ↔ ((s.byDenom d).isSome = true ∧ coinAddress e s d = some a) := by
  unfold tokenDenom coinAddress
  constructor
  · intro ht
    cases hi : s.byErc a with
    | none => rw [hi] at ht; cases ht
    | some i =>
      obtain ⟨p, hp, hpa⟩ := h.erc _ _ hi
      rw [hi] at ht
      have ht : (s.pairs i).map Pair.denom = some d := ht
      rw [hp] at ht
      have hd : p.denom = d := Option.some.inj ht
      obtain ⟨_, _, _, _, k5⟩ := h.known _ _ hp
      rw [hd] at k5
      rw [k5]
      dsimp only
      rw [hp]
      exact ⟨rfl, congrArg some hpa⟩
  · rintro ⟨h1, h2⟩
    cases hi : s.byDenom d with
    | none => rw [hi] at h1; cases h1
    | some i =>
      obtain ⟨p, hp, hpd⟩ := h.denom _ _ hi
      rw [hi] at h2
      dsimp only at h2
      rw [hp] at h2
      have ha : p.contract e.x = a := Option.some.inj h2
      obtain ⟨_, _, _, k4, _⟩ := h.known _ _ hp
      rw [ha] at k4
      rw [k4]
      show (s.pairs i).map Pair.denom = some d
      rw [hp]
      exact congrArg some hpd

/-- The stores at the start: nothing is registered. -/
def empty (described : List Str) : State := ⟨fun _ => none, fun _ => none, fun _ => none, described⟩

theorem empty_inv (e : Env) (pool : List Pair) (ds : List Str) : Inv e pool (empty ds) :=
  ⟨fun _ _ h => (by cases h), fun _ _ h => (by cases h), fun _ _ h => (by cases h), fun _ _ h => (by cases h)⟩

/-- A genesis with different contracts and different denominations, each with metadata, gives agreeing stores. -/
theorem genesis_inv {e : Env} {pool : List Pair} {ps : List Pair} {s : State} (hc : NoCollision e pool) (h : Inv e pool s)
    (hp : ∀ p ∈ ps, p ∈ pool ∧ (e.x.parse p.erc20).isSome = true ∧ s.byErc (p.contract e.x) = none ∧ s.byDenom p.denom = none ∧
      (p.denom ∈ s.described ∨ 32 < p.denom.length))
    (h1 : (ps.map (Pair.contract e.x)).Nodup) (h2 : (ps.map Pair.denom).Nodup) : Inv e pool (initGenesis e ps s) := by
  induction ps generalizing s with
  | nil => exact h
  | cons p ps ih =>
    obtain ⟨n1, h1⟩ := List.nodup_cons.1 h1
    obtain ⟨n2, h2⟩ := List.nodup_cons.1 h2
    obtain ⟨q1, q2, q3, q4, q5⟩ := hp p List.mem_cons_self
    refine ih (s := setToken e s p) (setToken_inv hc h q1 q2 q3 q4 q5) (fun r hr => ?_) h1 h2
    obtain ⟨r1, r2, r3, r4, r5⟩ := hp r (List.mem_cons_of_mem _ hr)
    have m1 : r.contract e.x ≠ p.contract e.x := fun he => n1 (List.mem_map.2 ⟨r, hr, he⟩)
    have m2 : r.denom ≠ p.denom := fun he => n2 (List.mem_map.2 ⟨r, hr, he⟩)
    dsimp only [setToken]
    rw [upd_ne _ _ m1, upd_ne _ _ m2]
    exact ⟨r1, r2, r3, r4, r5⟩

/-- The full property asks this of every history. Here: after any history of registrations, creations, bridged tokens, vouchers,
toggles and deletions, from a genesis with different contracts and described denominations, contract and denomination
determine each other. Needed: no two of the strings hashed collide, and addresses are fresh. -/
theorem registry_bijective_partial {e : Env} {genesis : List Pair} {described : List Str} {ops : List Op}
    (hg : ∀ p ∈ genesis, (e.x.parse p.erc20).isSome = true ∧ (p.denom ∈ described ∨ 32 < p.denom.length))
    (h1 : (genesis.map (Pair.contract e.x)).Nodup) (h2 : (genesis.map Pair.denom).Nodup)
    (hc : NoCollision e (genesis ++ ops.filterMap (candidate e)))
    (hf : FreshRun e (initGenesis e genesis (empty described)) ops) (a : Nat) (d : Str) :
    tokenDenom (run e (initGenesis e genesis (empty described)) ops) a = some d ↔
      (((run e (initGenesis e genesis (empty described)) ops).byDenom d).isSome = true ∧
        coinAddress e (run e (initGenesis e genesis (empty described)) ops) d = some a) := by
  refine inv_bijective (run_inv hc (genesis_inv hc (empty_inv _ _ _) (fun p hp => ?_) h1 h2) (fun op ho p hp => ?_) hf) a d
  · exact ⟨List.mem_append_left _ hp, (hg p hp).1, rfl, rfl, (hg p hp).2⟩
  · exact List.mem_append_right _ (List.mem_filterMap.2 ⟨op, ho, hp⟩)

/-- Deleting a pair removes both directions, and touches no other pair. -/
theorem delete_both {e : Env} {pool : List Pair} {s : State} (h : Inv e pool s) {i : Nat} {p : Pair} (hp : s.pairs i = some p) :
    tokenDenom (deletePair e s p) (p.contract e.x) = none ∧ (deletePair e s p).byDenom p.denom = none ∧
    (∀ a, a ≠ p.contract e.x → tokenDenom (deletePair e s p) a = tokenDenom s a) ∧
    ∀ d, d ≠ p.denom → coinAddress e (deletePair e s p) d = coinAddress e s d := by
  obtain ⟨k1, _, _, k4, k5⟩ := h.known _ _ hp
  subst k1
  refine ⟨?_, upd_self _ _ _, fun a ha => ?_, fun d hd => ?_⟩
  · unfold tokenDenom deletePair
    dsimp only
    rw [upd_self]
    rfl
  · unfold tokenDenom deletePair
    dsimp only
    rw [upd_ne _ _ ha]
    cases hi : s.byErc a with
    | none => rfl
    | some j =>
      have hj : j ≠ p.id e.H := fun hj => by
        obtain ⟨q, hq, hqa⟩ := h.erc _ _ hi
        rw [hj, hp] at hq
        cases hq
        exact ha hqa.symm
      show (upd s.pairs _ none j).map _ = (s.pairs j).map _
      rw [upd_ne _ _ hj]
  · unfold coinAddress deletePair
    dsimp only
    rw [upd_ne _ _ hd]
    cases hi : s.byDenom d with
    | none => rfl
    | some j =>
      have hj : j ≠ p.id e.H := fun hj => by
        obtain ⟨q, hq, hqa⟩ := h.denom _ _ hi
        rw [hj, hp] at hq
        cases hq
        exact hd hqa.symm
      dsimp only
      rw [upd_ne _ _ hj]

/-- Toggling changes only whether conversion is on. -/
theorem toggle_only {e : Env} {pool : List Pair} {s : State} (h : Inv e pool s) (t : Str) (a : Nat) (d : Str) :
    tokenDenom (toggle e s t) a = tokenDenom s a ∧ coinAddress e (toggle e s t) d = coinAddress e s d ∧
      ∀ p, findPair e s t = some p → findPair e (toggle e s t) t = some { p with enabled := !p.enabled } := by
  unfold toggle
  cases hf : findPair e s t with
  | none => exact ⟨rfl, rfl, fun p hp => (by cases hp)⟩
  | some p =>
    dsimp only
    obtain ⟨i, hi⟩ := findPair_some hf
    obtain ⟨k1, _⟩ := h.known _ _ hi
    subst k1
    refine ⟨?_, ?_, fun q hq => ?_⟩
    · unfold tokenDenom
      dsimp only
      cases hj : s.byErc a with
      | none => rfl
      | some j =>
        show (upd s.pairs _ _ j).map _ = (s.pairs j).map _
        by_cases he : j = p.id e.H
        · subst he; rw [upd_self, hi]; rfl
        · rw [upd_ne _ _ he]
    · unfold coinAddress
      dsimp only
      cases hj : s.byDenom d with
      | none => rfl
      | some j =>
        dsimp only
        by_cases he : j = p.id e.H
        · subst he; rw [upd_self, hi]; rfl
        · rw [upd_ne _ _ he]
    · cases hq
      unfold findPair at hf ⊢
      have hpid : pairId e { s with pairs := upd s.pairs (p.id e.H) (some { p with enabled := !p.enabled }) } t = pairId e s t := rfl
      rw [hpid]
      cases hj : pairId e s t with
      | none => rw [hj] at hf; cases hf
      | some j =>
        rw [hj] at hf
        have hf : s.pairs j = some p := hf
        have := (h.known _ _ hf).1
        subst this
        exact upd_self _ _ _

theorem described_kept (e : Env) (s : State) (op : Op) : ∀ d ∈ s.described, d ∈ (step e s op).described := by
  intro d hd
  cases op with
  | register a ok =>
    show d ∈ (register e s a ok).described
    unfold register
    repeat' split
    all_goals first | exact hd | exact List.mem_cons_of_mem _ hd
  | create d' a =>
    show d ∈ (createToken e s d' a).described
    unfold createToken
    repeat' split
    all_goals first | exact hd | exact List.mem_cons_of_mem _ hd
  | bridge d' a =>
    show d ∈ (bridgeToken e s d' a).described
    unfold bridgeToken
    repeat' split
    all_goals first | exact hd | exact List.mem_cons_of_mem _ hd
  | voucher d' =>
    show d ∈ (receiveVoucher e s d').described
    unfold receiveVoucher
    repeat' split
    all_goals exact hd
  | toggle t =>
    show d ∈ (toggle e s t).described
    unfold toggle
    repeat' split
    all_goals exact hd
  | convertDead t =>
    show d ∈ (convertDead e s t).described
    unfold convertDead
    repeat' split
    all_goals exact hd
  | describe d' => exact List.mem_cons_of_mem _ hd

/-- Once the denomination of an external contract is described (which its registration does), no later registration of the contract
succeeds: a pair that was deleted never comes back, and its coins cannot be converted any more. -/
theorem registered_at_most_once {e : Env} {s : State} {a : Nat} (h : erc20Denom e.x a ∈ s.described) (ops : List Op) (ok : Bool) :
    register e (run e s ops) a ok = run e s ops := by
  have hd : erc20Denom e.x a ∈ (run e s ops).described := by
    induction ops generalizing s with
    | nil => exact h
    | cons op ops ih => exact ih (described_kept e s op _ h)
  unfold register
  repeat' split
  all_goals first | rfl | (rename_i h1 h2 h3 h4; exact absurd hd ‹_›)

/-! ### Concrete cases -/

/-- Addresses are `x` followed by `a`s, or by `A`s. -/
def toyHex : Hex where
  parse s := match s with
    | 'x' :: t => if t.all (· == 'a') || t.all (· == 'A') then some t.length else none
    | _ => none
  print a := 'x' :: List.replicate a 'a'
  parse_print a := by simp
  no_bar s h := by
    revert h
    split
    · rename_i t
      split
      · rename_i hall
        intro _ hm
        simp only [Bool.or_eq_true, List.all_eq_true, beq_iff_eq] at hall
        rcases List.mem_cons.1 hm with hm | hm
        · exact absurd hm (by decide)
        · rcases hall with hall | hall
          · exact absurd (hall _ hm) (by decide)
          · exact absurd (hall _ hm) (by decide)
      · intro h; cases h
    · intro h; cases h

/-- A hash without collisions on strings of these letters. -/
def toyHash (s : Str) : Nat := s.foldl (fun n c => n * 128 + c.toNat) 1

def toyEnv : Env := ⟨toyHex, toyHash, fun d => match d with
  | 'i' :: 'b' :: 'c' :: '/' :: t => some (1000 + t.length)
  | _ => none⟩

def gold : Str := ['g', 'o', 'l', 'd']
def voucher : Str := ['i', 'b', 'c', '/'] ++ List.replicate 64 'F'
def busy : List Op :=
  [.register 3 true, .create gold 7, .bridge ['h', '-', '1'] 8, .voucher voucher, .bridge ['h', '-', '1'] 9,
   .toggle gold, .register 3 true, .convertDead ['x', 'A', 'A', 'A']]

example : tokenDenom (run toyEnv (empty []) busy) 7 = some gold ∧ coinAddress toyEnv (run toyEnv (empty []) busy) gold = some 7 ∧
    tokenDenom (run toyEnv (empty []) busy) 3 = none ∧ tokenDenom (run toyEnv (empty []) busy) 1064 = some voucher ∧
    coinAddress toyEnv (run toyEnv (empty []) busy) ['h', '-', '1'] = some 8 ∧
    (findPair toyEnv (run toyEnv (empty []) busy) gold).map Pair.enabled = some false := by decide +kernel

/-- This history meets the hypotheses of `registry_bijective_partial`. -/
example : NoCollision toyEnv ([] ++ busy.filterMap (candidate toyEnv)) ∧ FreshRun toyEnv (initGenesis toyEnv [] (empty [])) busy := by
  constructor
  · unfold NoCollision
    decide +kernel
  · refine ⟨trivial, ?_, ⟨?_, ?_⟩, ⟨?_, ?_, fun a ha _ => ?_⟩, ⟨?_, ?_⟩, trivial, trivial, trivial, trivial⟩
    · show _ = none; decide +kernel
    · decide +kernel
    · decide +kernel
    · decide +kernel
    · decide +kernel
    · have : a = 1064 := (Option.some.inj ((show toyEnv.ibcAddr voucher = some 1064 by decide +kernel).symm.trans ha)).symm
      subst this
      decide +kernel
    · decide +kernel
    · decide +kernel

/-- The contract 3 was registered and deleted in this history. -/
example : erc20Denom toyEnv.x 3 ∈ (run toyEnv (empty []) busy).described ∧ tokenDenom (run toyEnv (empty []) busy) 3 = none := by
  decide +kernel

/-- A genesis file that spells one address in two ways passes validation; one denomination then points to a contract that points to the
other denomination. -/
theorem genesis_spelling_breaks_registry :
    validateGenesis toyHex [⟨['x', 'a'], gold, true, .module⟩, ⟨['x', 'A'], ['t', 'i', 'n'], true, .module⟩] [] [] = true ∧
    coinAddress toyEnv (initGenesis toyEnv [⟨['x', 'a'], gold, true, .module⟩, ⟨['x', 'A'], ['t', 'i', 'n'], true, .module⟩]
      (empty [])) gold = some 1 ∧
    tokenDenom (initGenesis toyEnv [⟨['x', 'a'], gold, true, .module⟩, ⟨['x', 'A'], ['t', 'i', 'n'], true, .module⟩]
      (empty [])) 1 = some ['t', 'i', 'n'] := by decide +kernel

/-- For a pair of the genesis whose denomination has no bank metadata, anyone can create a second token with that denomination: the
denomination then points to the new contract, while the old contract still claims it. -/
theorem undescribed_denom_taken_over :
    coinAddress toyEnv (run toyEnv (initGenesis toyEnv [⟨['x', 'a'], gold, true, .module⟩] (empty [])) [.create gold 7]) gold =
      some 7 ∧
    tokenDenom (run toyEnv (initGenesis toyEnv [⟨['x', 'a'], gold, true, .module⟩] (empty [])) [.create gold 7]) 1 =
      some gold := by decide +kernel

end Erc20
