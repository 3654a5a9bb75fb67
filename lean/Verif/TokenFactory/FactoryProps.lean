import Verif.TokenFactory.FactoryLemmas
/-!
# Only the admin changes a denomination (C38)
-/
namespace TokenFactory

/-- The operation carries a message of the token factory. -/
def Op.carries (op : Op) (m : Msg) : Prop := (∃ signers, op = .tx signers m) ∨ op = .proposal m

/-- Was the operation signed by this account? A proposal and a transfer of another module are not. -/
def Op.signedBy (op : Op) (a : Nat) : Prop := ∃ signers m, op = .tx signers m ∧ a ∈ signers

/-- The supply of a denomination grows only through a mint message whose sender is the admin at that time, by the amount it
names; and if it came in a transaction, that account has signed it. -/
theorem supply_grows_by_admin {g : Config} {s : State} {op : Op} {d : Str}
    (h : s.supply d < (step g s op).supply d) :
    ∃ (n : Nat) (a : Nat), op.carries (.mint (s.admin d) d n) ∧ s.admin d ≠ [] ∧ g.k.decode (s.admin d) = some a ∧
      (step g s op).supply d = s.supply d + n ∧ (op.signedBy a ∨ op = .proposal (.mint (s.admin d) d n)) := by
  rcases step_cases g s op with ⟨b, hb⟩ | ⟨m, ho, hv, hh⟩
  · rw [hb] at h
    exact absurd h (Nat.lt_irrefl _)
  · generalize step g s op = s' at *
    cases m with
    | create c sub n y dec =>
      obtain ⟨d', b, _, _, _, h2⟩ := create_some hh
      rw [(createAfter_some h2).2] at h
      exact absurd h (Nat.lt_irrefl _)
    | mint c d' n =>
      obtain ⟨a, _, hc, _, hn, ha, _, hs⟩ := mint_some hh
      rw [hs] at h ⊢
      dsimp only at h ⊢
      by_cases hd : d = d'
      · subst hd
        subst hc
        obtain ⟨k, rfl⟩ : ∃ k : Nat, n = k := ⟨n.toNat, by omega⟩
        refine ⟨k, a, ?_, ?_, ha, by rw [upd_self]; rfl, ?_⟩
        · rcases ho with ⟨sg, _, ho, _⟩ | ho
          · exact .inl ⟨sg, ho⟩
          · exact .inr ho
        · intro hx
          rw [hx, g.k.decode_nil] at ha
          cases ha
        · rcases ho with ⟨sg, a', ho, ha', hm⟩ | ho
          · have : g.k.decode (s.admin d) = some a' := ha'
            rw [ha] at this
            cases this
            exact .inl ⟨sg, _, ho, hm⟩
          · exact .inr ho
      · rw [upd_ne _ _ hd] at h
        exact absurd h (Nat.lt_irrefl _)
    | burn c d' n =>
      obtain ⟨a, _, _, _, _, hs⟩ := burn_some hh
      rw [hs] at h
      dsimp only at h
      by_cases hd : d = d'
      · subst hd
        rw [upd_self] at h
        omega
      · rw [upd_ne _ _ hd] at h
        exact absurd h (Nat.lt_irrefl _)
    | changeAdmin c d' n =>
      rw [(changeAdmin_some hh).2] at h
      exact absurd h (Nat.lt_irrefl _)
    | setMetadata c b m =>
      rw [(setMetadata_some hh).2.2] at h
      exact absurd h (Nat.lt_irrefl _)

/-- It shrinks only through a burn message, by the amount it names, out of the balance of the sender. -/
theorem supply_shrinks_by_owner {g : Config} {s : State} {op : Op} {d : Str}
    (h : (step g s op).supply d < s.supply d) :
    ∃ (c : Str) (n : Nat) (a : Nat), op.carries (.burn c d n) ∧ g.k.decode c = some a ∧ n ≤ s.bal a d ∧
      (step g s op).supply d + n = s.supply d ∧ (step g s op).bal a d + n = s.bal a d := by
  rcases step_cases g s op with ⟨b, hb⟩ | ⟨m, ho, hv, hh⟩
  · rw [hb] at h
    exact absurd h (Nat.lt_irrefl _)
  · generalize step g s op = s' at *
    cases m with
    | create c sub n y dec =>
      obtain ⟨d', b, _, _, _, h2⟩ := create_some hh
      rw [(createAfter_some h2).2] at h
      exact absurd h (Nat.lt_irrefl _)
    | mint c d' n =>
      obtain ⟨a, _, hc, _, hn, ha, _, hs⟩ := mint_some hh
      rw [hs] at h
      dsimp only at h
      by_cases hd : d = d'
      · subst hd
        rw [upd_self] at h
        omega
      · rw [upd_ne _ _ hd] at h
        exact absurd h (Nat.lt_irrefl _)
    | burn c d' n =>
      obtain ⟨a, hn, ha, hb, hsu, hs⟩ := burn_some hh
      rw [hs] at h ⊢
      dsimp only at h ⊢
      by_cases hd : d = d'
      · subst hd
        obtain ⟨k, rfl⟩ : ∃ k : Nat, n = k := ⟨n.toNat, by omega⟩
        refine ⟨c, k, a, ?_, ha, hb, ?_, ?_⟩
        · rcases ho with ⟨sg, _, ho, _⟩ | ho
          · exact .inl ⟨sg, ho⟩
          · exact .inr ho
        · rw [upd_self]
          exact Nat.sub_add_cancel hsu
        · rw [upd_self, upd_self]
          exact Nat.sub_add_cancel hb
      · rw [upd_ne _ _ hd] at h
        exact absurd h (Nat.lt_irrefl _)
    | changeAdmin c d' n =>
      rw [(changeAdmin_some hh).2] at h
      exact absurd h (Nat.lt_irrefl _)
    | setMetadata c b m =>
      rw [(setMetadata_some hh).2.2] at h
      exact absurd h (Nat.lt_irrefl _)

/-- The admin of a denomination changes only through a message of the present admin naming the new one, or, for a
denomination that does not exist yet, when its creator creates it. -/
theorem admin_moves {g : Config} {s : State} {op : Op} {d : Str} (h : (step g s op).admin d ≠ s.admin d) :
    (s.admin d ≠ [] ∧ (step g s op).admin d ≠ [] ∧ op.carries (.changeAdmin (s.admin d) d ((step g s op).admin d)) ∧
      ∀ a, g.k.decode (s.admin d) = some a → op.signedBy a ∨ op = .proposal (.changeAdmin (s.admin d) d ((step g s op).admin d))) ∨
    (s.metadata d = none ∧ ∃ sub n y dec, op.carries (.create ((step g s op).admin d) sub n y dec) ∧
      getTokenDenom g.k ((step g s op).admin d) sub = some d ∧ (step g s op).admin d ≠ []) := by
  rcases step_cases g s op with ⟨b, hb⟩ | ⟨m, ho, hv, hh⟩
  · rw [hb] at h
    exact absurd rfl h
  · have hsend := sender_decodes hv
    generalize step g s op = s' at *
    have hne : ∀ x : Str, (g.k.decode x).isSome = true → x ≠ [] := by
      rintro x hx rfl
      rw [g.k.decode_nil] at hx
      cases hx
    cases m with
    | create c sub n y dec =>
      obtain ⟨d', b, h1, hm, hc, h2⟩ := create_some hh
      rw [(createAfter_some h2).2] at h ⊢
      dsimp only at h ⊢
      by_cases hd : d = d'
      · subst hd
        rw [upd_self]
        refine .inr ⟨hm, sub, n, y, dec, ?_, h1, hne _ hc⟩
        rcases ho with ⟨sg, _, ho, _⟩ | ho
        · exact .inl ⟨sg, ho⟩
        · exact .inr ho
      · rw [upd_ne _ _ hd] at h
        exact absurd rfl h
    | mint c d' n =>
      obtain ⟨a, _, hc, _, hn, ha, _, hs⟩ := mint_some hh
      rw [hs] at h
      exact absurd rfl h
    | burn c d' n =>
      obtain ⟨a, _, _, _, _, hs⟩ := burn_some hh
      rw [hs] at h
      exact absurd rfl h
    | changeAdmin c d' n =>
      obtain ⟨h1, h2⟩ := changeAdmin_some hh
      rw [h2] at h ⊢
      dsimp only at h ⊢
      by_cases hd : d = d'
      · subst hd
        subst h1
        rw [upd_self]
        unfold validateBasic at hv
        simp only [Bool.and_eq_true] at hv
        refine .inl ⟨hne _ hv.1.1, hne _ hv.1.2, ?_, fun a ha => ?_⟩
        · rcases ho with ⟨sg, _, ho, _⟩ | ho
          · exact .inl ⟨sg, ho⟩
          · exact .inr ho
        · rcases ho with ⟨sg, a', ho, ha', hm⟩ | ho
          · have : g.k.decode (s.admin d) = some a' := ha'
            rw [ha] at this
            cases this
            exact .inl ⟨sg, _, ho, hm⟩
          · exact .inr ho
      · rw [upd_ne _ _ hd] at h
        exact absurd rfl h
    | setMetadata c b m =>
      rw [(setMetadata_some hh).2.2] at h
      exact absurd rfl h

/-- Metadata of an existing denomination is changed only by a metadata message of its admin, or of the module's authority when there is
no admin. -/
theorem metadata_changed_by_admin {g : Config} {s : State} {op : Op} {d : Str} {m : Metadata} (h : s.metadata d = some m)
    (hne : (step g s op).metadata d ≠ some m) :
    ∃ m', (step g s op).metadata d = some m' ∧
      ((s.admin d ≠ [] ∧ ((∃ sg a, op = .tx sg (.setMetadata (s.admin d) d m') ∧ g.k.decode (s.admin d) = some a ∧ a ∈ sg) ∨
          op = .proposal (.setMetadata (s.admin d) d m'))) ∨
       (s.admin d = [] ∧ ((∃ sg a, op = .tx sg (.setMetadata g.authority d m') ∧ g.k.decode g.authority = some a ∧ a ∈ sg) ∨
          op = .proposal (.setMetadata g.authority d m')))) := by
  rcases step_cases g s op with ⟨b, hb⟩ | ⟨m0, ho, hv, hh⟩
  · rw [hb] at hne
    exact absurd h hne
  · generalize step g s op = s' at *
    cases m0 with
    | create c sub n y dec =>
      obtain ⟨d', b, h1, hm, hc, h2⟩ := create_some hh
      rw [(createAfter_some h2).2] at hne
      dsimp only at hne
      by_cases hd : d = d'
      · subst hd
        rw [h] at hm
        cases hm
      · rw [upd_ne _ _ hd] at hne
        exact absurd h hne
    | mint c d' n =>
      obtain ⟨a, _, hc, _, hn, ha, _, hs⟩ := mint_some hh
      rw [hs] at hne
      exact absurd h hne
    | burn c d' n =>
      obtain ⟨a, _, _, _, _, hs⟩ := burn_some hh
      rw [hs] at hne
      exact absurd h hne
    | changeAdmin c d' n =>
      rw [(changeAdmin_some hh).2] at hne
      exact absurd h hne
    | setMetadata c b m1 =>
      obtain ⟨h1, _, h3⟩ := setMetadata_some hh
      rw [h3] at hne ⊢
      dsimp only at hne ⊢
      by_cases hd : d = b
      · subst hd
        rw [upd_self]
        refine ⟨m1, rfl, ?_⟩
        unfold mayDescribe at h1
        simp only [Bool.or_eq_true, Bool.and_eq_true, decide_eq_true_eq] at h1
        rcases h1 with ⟨k1, k2⟩ | ⟨k1, k2⟩
        · subst k2
          exact .inl ⟨k1, ho⟩
        · subst k2
          exact .inr ⟨k1, ho⟩
      · rw [upd_ne _ _ hd] at hne
        exact absurd h hne

/-- Metadata is never removed, and decimals other than zero never change. -/
theorem metadata_kept {g : Config} {s : State} {d : Str} {m : Metadata} (h : s.metadata d = some m) (ops : List Op) :
    ∃ m', (run g s ops).metadata d = some m' ∧ (m.decimals ≠ 0 → m'.decimals = m.decimals) := by
  induction ops generalizing s m with
  | nil => exact ⟨m, h, fun _ => rfl⟩
  | cons op ops ih =>
    have key : ∃ m', (step g s op).metadata d = some m' ∧ (m.decimals ≠ 0 → m'.decimals = m.decimals) := by
      rcases step_cases g s op with ⟨b, hb⟩ | ⟨m0, ho, hv, hh⟩
      · rw [hb]
        exact ⟨m, h, fun _ => rfl⟩
      · generalize step g s op = s' at *
        cases m0 with
        | create c sub n y dec =>
          obtain ⟨d', b, h1, hm, hc, h2⟩ := create_some hh
          rw [(createAfter_some h2).2]
          dsimp only
          by_cases hd : d = d'
          · subst hd
            rw [h] at hm
            cases hm
          · rw [upd_ne _ _ hd]
            exact ⟨m, h, fun _ => rfl⟩
        | mint c d' n =>
          obtain ⟨a, _, hc, _, hn, ha, _, hs⟩ := mint_some hh
          rw [hs]
          exact ⟨m, h, fun _ => rfl⟩
        | burn c d' n =>
          obtain ⟨a, _, _, _, _, hs⟩ := burn_some hh
          rw [hs]
          exact ⟨m, h, fun _ => rfl⟩
        | changeAdmin c d' n =>
          rw [(changeAdmin_some hh).2]
          exact ⟨m, h, fun _ => rfl⟩
        | setMetadata c b m1 =>
          obtain ⟨_, h2, h3⟩ := setMetadata_some hh
          rw [h3]
          dsimp only
          by_cases hd : d = b
          · subst hd
            rw [upd_self]
            refine ⟨m1, rfl, fun hz => ?_⟩
            rw [h] at h2
            unfold decimalsOk at h2
            dsimp only at h2
            by_cases he : m.decimals = m1.decimals
            · exact he.symm
            · rw [decide_eq_true hz, decide_eq_true he] at h2
              cases h2
          · rw [upd_ne _ _ hd]
            exact ⟨m, h, fun _ => rfl⟩
    obtain ⟨m', h', hd'⟩ := key
    obtain ⟨m2, h2, hd2⟩ := ih h'
    refine ⟨m2, h2, fun hz => ?_⟩
    have := hd' hz
    rw [hd2 (by rw [this]; exact hz), this]

/-- A denomination without admin stays so, and nothing more of it is ever minted. -/
theorem no_admin_forever {g : Config} {s : State} {d : Str} (h : s.admin d = []) (hm : (s.metadata d).isSome = true)
    (ops : List Op) : (run g s ops).admin d = [] ∧ (run g s ops).supply d ≤ s.supply d := by
  induction ops generalizing s with
  | nil => exact ⟨h, Nat.le_refl _⟩
  | cons op ops ih =>
    have h1 : (step g s op).admin d = [] := by
      by_cases hx : (step g s op).admin d = s.admin d
      · rw [hx, h]
      · rcases admin_moves hx with hy | hy
        · exact absurd h hy.1
        · rw [hy.1] at hm
          cases hm
    have h2 : (step g s op).supply d ≤ s.supply d := by
      apply Nat.le_of_not_lt
      intro hx
      obtain ⟨n, a, _, hy, _⟩ := supply_grows_by_admin hx
      exact hy h
    have h3 : ((step g s op).metadata d).isSome = true := by
      cases hy : s.metadata d with
      | none => rw [hy] at hm; cases hm
      | some m =>
        obtain ⟨m', hm', _⟩ := metadata_kept (g := g) hy [op]
        have : (step g s op).metadata d = some m' := hm'
        rw [this]; rfl
    obtain ⟨h4, h5⟩ := ih h1 h3
    exact ⟨h4, Nat.le_trans h5 h2⟩

/-- An admin once set is never empty again: rights can be handed on but not given up. -/
theorem admin_never_given_up {g : Config} {s : State} {d : Str} (h : s.admin d ≠ []) (ops : List Op) :
    (run g s ops).admin d ≠ [] := by
  induction ops generalizing s with
  | nil => exact h
  | cons op ops ih =>
    refine ih (s := step g s op) ?_
    by_cases hx : (step g s op).admin d = s.admin d
    · rw [hx]; exact h
    · rcases admin_moves hx with hy | ⟨_, _, _, _, _, _, _, hy⟩
      · exact hy.2.1
      · exact hy

/-- As long as the account of the admin signs nothing and no proposal passes, admin and supply stay with it: the admin is the
same, and nothing was minted. -/
theorem safe_without_signature {g : Config} {s : State} {d : Str} {a : Nat} (ha : g.k.decode (s.admin d) = some a)
    (hm : (s.metadata d).isSome = true) (ops : List Op)
    (hops : ∀ op ∈ ops, ¬ op.signedBy a ∧ ∀ m, op ≠ .proposal m) :
    (run g s ops).admin d = s.admin d ∧ (run g s ops).supply d ≤ s.supply d := by
  induction ops generalizing s with
  | nil => exact ⟨rfl, Nat.le_refl _⟩
  | cons op ops ih =>
    obtain ⟨hs, hp⟩ := hops op List.mem_cons_self
    have h1 : (step g s op).admin d = s.admin d := by
      apply Decidable.byContradiction
      intro hx
      rcases admin_moves hx with ⟨_, _, _, hy⟩ | hy
      · rcases hy a ha with hy | hy
        · exact hs hy
        · exact hp _ hy
      · rw [hy.1] at hm
        cases hm
    have h2 : (step g s op).supply d ≤ s.supply d := by
      apply Nat.le_of_not_lt
      intro hx
      obtain ⟨n, a', _, hy, ha', _, hz⟩ := supply_grows_by_admin hx
      rw [ha] at ha'
      cases ha'
      rcases hz with hz | hz
      · exact hs hz
      · exact hp _ hz
    have h3 : ((step g s op).metadata d).isSome = true := by
      cases hy : s.metadata d with
      | none => rw [hy] at hm; cases hm
      | some m =>
        obtain ⟨m', hm', _⟩ := metadata_kept (g := g) hy [op]
        have : (step g s op).metadata d = some m' := hm'
        rw [this]; rfl
    obtain ⟨h4, h5⟩ := ih (s := step g s op) (by rw [h1]; exact ha) h3 (fun o ho => hops o (List.mem_cons_of_mem _ ho))
    exact ⟨h4.trans h1, Nat.le_trans h5 h2⟩

/-! ### Creation and genesis -/

/-- What holds of every state reached from the empty one: each denomination with an admin was created, once, and can be
deconstructed. -/
structure Sound (g : Config) (s : State) : Prop where
  indexed : ∀ d, s.admin d ≠ [] → d ∈ s.index.map Prod.snd
  once : (s.index.map Prod.snd).Nodup
  described : ∀ d ∈ s.index.map Prod.snd, (s.metadata d).isSome = true
  factory : ∀ d ∈ s.index.map Prod.snd, (deconstruct g.k d).isSome = true
  adminOk : ∀ d ∈ s.index.map Prod.snd, (g.k.decode (s.admin d)).isSome = true

theorem step_sound {g : Config} {s : State} (h : Sound g s) (op : Op) : Sound g (step g s op) := by
  have hmk : ∀ d, (s.metadata d).isSome = true → ((step g s op).metadata d).isSome = true := by
    intro d hd
    cases hy : s.metadata d with
    | none => rw [hy] at hd; cases hd
    | some m =>
      obtain ⟨m', hm', _⟩ := metadata_kept (g := g) hy [op]
      have : (step g s op).metadata d = some m' := hm'
      rw [this]; rfl
  rcases step_cases g s op with ⟨b, hb⟩ | ⟨m, ho, hv, hh⟩
  · rw [hb]
    exact ⟨h.1, h.2, h.3, h.4, h.5⟩
  · generalize step g s op = s' at *
    have hne : ∀ x : Str, (g.k.decode x).isSome = true → x ≠ [] := by
      rintro x hx rfl
      rw [g.k.decode_nil] at hx
      cases hx
    cases m with
    | create c sub n y dec =>
      obtain ⟨d', b, h1, hm, hc, h2⟩ := create_some hh
      have e := (createAfter_some h2).2
      have hnew : d' ∉ s.index.map Prod.snd := by
        intro hx
        have := h.described _ hx
        rw [hm] at this
        cases this
      have hni : (c, d') ∉ s.index := fun hx => hnew (List.mem_map.2 ⟨_, hx, rfl⟩)
      dsimp only at e
      rw [if_neg hni] at e
      have hidx : s'.index.map Prod.snd = s.index.map Prod.snd ++ [d'] := by
        rw [e]
        simp
      have hadm : s'.admin = upd s.admin d' c := by rw [e]
      constructor
      · intro d hd
        rw [hidx]
        rw [hadm] at hd
        by_cases hx : d = d'
        · rw [hx]; simp
        · rw [upd_ne _ _ hx] at hd
          exact List.mem_append_left _ (h.indexed d hd)
      · rw [hidx]
        refine List.nodup_append.2 ⟨h.once, by simp, fun x hx z hz => ?_⟩
        rcases List.mem_singleton.1 hz with rfl
        exact fun he => hnew (he ▸ hx)
      · intro d hd
        rw [hidx] at hd
        rcases List.mem_append.1 hd with hd | hd
        · exact hmk d (h.described d hd)
        · rcases List.mem_singleton.1 hd with rfl
          rw [e]
          show (upd s.metadata d _ d).isSome = true
          rw [upd_self]
          rfl
      · intro d hd
        rw [hidx] at hd
        rcases List.mem_append.1 hd with hd | hd
        · exact h.factory d hd
        · rcases List.mem_singleton.1 hd with rfl
          exact constructed_mintable h1
      · intro d hd
        rw [hidx] at hd
        rw [hadm]
        by_cases hx : d = d'
        · rw [hx, upd_self]; exact hc
        · rw [upd_ne _ _ hx]
          rcases List.mem_append.1 hd with hd | hd
          · exact h.adminOk d hd
          · exact absurd (List.mem_singleton.1 hd) hx
    | mint c d' n =>
      obtain ⟨a, _, hc, _, hn, ha, _, hs⟩ := mint_some hh
      rw [hs]
      exact ⟨h.1, h.2, h.3, h.4, h.5⟩
    | burn c d' n =>
      obtain ⟨a, _, _, _, _, hs⟩ := burn_some hh
      rw [hs]
      exact ⟨h.1, h.2, h.3, h.4, h.5⟩
    | changeAdmin c d' n =>
      obtain ⟨h1, h2⟩ := changeAdmin_some hh
      unfold validateBasic at hv
      simp only [Bool.and_eq_true] at hv
      have hold : s.admin d' ≠ [] := by rw [← h1]; exact hne _ hv.1.1
      rw [h2]
      refine ⟨fun d hd => ?_, h.2, h.3, h.4, fun d hd => ?_⟩
      · by_cases hx : d = d'
        · rw [hx]; exact h.indexed d' hold
        · have hd : upd s.admin d' n d ≠ [] := hd
          rw [upd_ne _ _ hx] at hd
          exact h.indexed d hd
      · show (g.k.decode (upd s.admin d' n d)).isSome = true
        by_cases hx : d = d'
        · rw [hx, upd_self]; exact hv.1.2
        · rw [upd_ne _ _ hx]; exact h.adminOk d hd
    | setMetadata c b m =>
      have e := (setMetadata_some hh).2.2
      have hi : s'.index = s.index := by rw [e]
      have ha : s'.admin = s.admin := by rw [e]
      refine ⟨?_, ?_, ?_, ?_, ?_⟩
      · rw [hi, ha]; exact h.1
      · rw [hi]; exact h.2
      · rw [hi]; exact fun d hd => hmk d (h.3 d hd)
      · rw [hi]; exact h.4
      · rw [hi, ha]; exact h.5

theorem run_sound {g : Config} {s : State} (h : Sound g s) (ops : List Op) : Sound g (run g s ops) := by
  induction ops generalizing s with
  | nil => exact h
  | cons op ops ih => exact ih (step_sound h op)

/-- The state without denominations of the token factory, over any bank. -/
def empty (metadata : Str → Option Metadata) (supply : Str → Nat) (bal : Nat → Str → Nat) : State :=
  ⟨fun _ => [], metadata, supply, bal, []⟩

theorem empty_sound (g : Config) (md : Str → Option Metadata) (su : Str → Nat) (bal : Nat → Str → Nat) :
    Sound g (empty md su bal) :=
  ⟨fun _ h => absurd rfl h, List.nodup_nil, fun _ h => (by cases h), fun _ h => (by cases h), fun _ h => (by cases h)⟩

theorem validateGenesis_of {g : Config} {xs : List GenesisDenom} {seen : List Str}
    (h1 : (xs.map GenesisDenom.denom).Nodup) (h2 : ∀ x ∈ xs, x.denom ∉ seen) (h3 : ∀ x ∈ xs, (deconstruct g.k x.denom).isSome = true)
    (h4 : ∀ x ∈ xs, (g.k.decode x.admin).isSome = true) : validateGenesis g xs seen = true := by
  induction xs generalizing seen with
  | nil => rfl
  | cons x xs ih =>
    unfold validateGenesis
    obtain ⟨hn, hd⟩ := List.nodup_cons.1 h1
    rw [h3 x List.mem_cons_self, h4 x List.mem_cons_self,
      ih hd (fun y hy hm => ?_) (fun y hy => h3 y (List.mem_cons_of_mem _ hy)) (fun y hy => h4 y (List.mem_cons_of_mem _ hy))]
    · have := h2 x List.mem_cons_self
      simp [this]
    · rcases List.mem_cons.1 hm with he | hm
      · exact hn (List.mem_map.2 ⟨y, hy, he⟩)
      · exact h2 y (List.mem_cons_of_mem _ hy) hm

theorem export_denoms (s : State) : (exportGenesis s).map GenesisDenom.denom = s.index.map Prod.snd := by
  unfold exportGenesis
  rw [List.map_map]
  rfl

theorem initGenesis_spec {g : Config} {xs : List GenesisDenom} {s : State}
    (h1 : (xs.map GenesisDenom.denom).Nodup) (h3 : ∀ x ∈ xs, (deconstruct g.k x.denom).isSome = true)
    (h4 : ∀ x ∈ xs, (g.k.decode x.admin).isSome = true) :
    ∃ s', initGenesis g xs s = some s' ∧ s'.supply = s.supply ∧ s'.bal = s.bal ∧
      (∀ x ∈ xs, s'.admin x.denom = x.admin ∧ s'.metadata x.denom = some ⟨x.name, x.symbol, x.decimals, []⟩) ∧
      (∀ d, d ∉ xs.map GenesisDenom.denom → s'.admin d = s.admin d ∧ s'.metadata d = s.metadata d) := by
  induction xs generalizing s with
  | nil => exact ⟨s, rfl, rfl, rfl, fun _ h => (by cases h), fun _ _ => ⟨rfl, rfl⟩⟩
  | cons x xs ih =>
    obtain ⟨hn, hd⟩ := List.nodup_cons.1 h1
    have hx3 := h3 x List.mem_cons_self
    have hx4 := h4 x List.mem_cons_self
    unfold initGenesis
    cases hq : deconstruct g.k x.denom with
    | none => rw [hq] at hx3; cases hx3
    | some p =>
      obtain ⟨creator, sub⟩ := p
      dsimp only
      have hcr : (g.k.decode creator).isSome = true := by
        unfold deconstruct at hq
        split at hq
        · split at hq
          · split at hq
            · split at hq
              · cases hq
              split at hq
              · cases hq
              split at hq
              · cases hq
              cases hq
              rw [g.k.decode_encode]; rfl
            · cases hq
          · cases hq
        · cases hq
      unfold createAfter
      rw [if_pos (.inr hcr)]
      dsimp only
      unfold setAuthority
      rw [if_pos (.inr hx4)]
      dsimp only
      obtain ⟨s', r1, r2, r3, r4, r5⟩ := ih (s := { s with
          metadata := upd s.metadata x.denom (some ⟨x.name, x.symbol, x.decimals, []⟩)
          admin := upd (upd s.admin x.denom creator) x.denom x.admin
          index := if (creator, x.denom) ∈ s.index then s.index else s.index ++ [(creator, x.denom)] })
        hd (fun y hy => h3 y (List.mem_cons_of_mem _ hy)) (fun y hy => h4 y (List.mem_cons_of_mem _ hy))
      refine ⟨s', r1, r2, r3, fun y hy => ?_, fun d hdn => ?_⟩
      · rcases List.mem_cons.1 hy with rfl | hy
        · obtain ⟨q1, q2⟩ := r5 y.denom hn
          dsimp only at q1 q2
          rw [upd_self] at q1 q2
          exact ⟨q1, q2⟩
        · exact r4 y hy
      · rw [List.map_cons, List.mem_cons, not_or] at hdn
        obtain ⟨q1, q2⟩ := r5 d hdn.2
        dsimp only at q1 q2
        rw [upd_ne _ _ hdn.1] at q1 q2
        rw [upd_ne _ _ hdn.1] at q1
        exact ⟨q1, q2⟩

/-- What is exported is a valid genesis, and importing it restores, over the same bank, all admins, and names, symbols and
decimals. -/
theorem export_import {g : Config} {s0 : State} (h0 : Sound g s0) (ops : List Op) :
    validateGenesis g (exportGenesis (run g s0 ops)) [] = true ∧
    ∃ s', initGenesis g (exportGenesis (run g s0 ops))
        (empty (run g s0 ops).metadata (run g s0 ops).supply (run g s0 ops).bal) = some s' ∧
      (∀ d, s'.admin d = (run g s0 ops).admin d) ∧ s'.supply = (run g s0 ops).supply ∧ s'.bal = (run g s0 ops).bal ∧
      ∀ d, (s'.metadata d).map (fun m => (m.name, m.symbol, m.decimals)) =
        ((run g s0 ops).metadata d).map (fun m => (m.name, m.symbol, m.decimals)) := by
  have h := run_sound h0 ops
  generalize run g s0 ops = s at *
  have k1 : ((exportGenesis s).map GenesisDenom.denom).Nodup := by rw [export_denoms]; exact h.once
  have k2 : ∀ x ∈ exportGenesis s, x.denom ∈ s.index.map Prod.snd ∧ x.admin = s.admin x.denom ∧
      (x.name, x.symbol, x.decimals) = ((s.metadata x.denom).getD ⟨[], [], 0, []⟩ |> fun m => (m.name, m.symbol, m.decimals)) := by
    intro x hx
    obtain ⟨y, hy, rfl⟩ := List.mem_map.1 hx
    exact ⟨List.mem_map.2 ⟨y, hy, rfl⟩, rfl, rfl⟩
  have k3 : ∀ x ∈ exportGenesis s, (deconstruct g.k x.denom).isSome = true := fun x hx => h.factory _ (k2 x hx).1
  have k4 : ∀ x ∈ exportGenesis s, (g.k.decode x.admin).isSome = true := fun x hx => by
    rw [(k2 x hx).2.1]; exact h.adminOk _ (k2 x hx).1
  refine ⟨validateGenesis_of k1 (fun _ _ hm => by cases hm) k3 k4, ?_⟩
  obtain ⟨s', r1, r2, r3, r4, r5⟩ := initGenesis_spec (s := empty s.metadata s.supply s.bal) k1 k3 k4
  refine ⟨s', r1, fun d => ?_, r2, r3, fun d => ?_⟩
  · by_cases hd : d ∈ (exportGenesis s).map GenesisDenom.denom
    · obtain ⟨x, hx, rfl⟩ := List.mem_map.1 hd
      rw [(r4 x hx).1, (k2 x hx).2.1]
    · rw [(r5 d hd).1]
      rw [export_denoms] at hd
      show [] = _
      apply Decidable.byContradiction
      intro hne
      exact hd (h.indexed d (fun e => hne e.symm))
  · by_cases hd : d ∈ (exportGenesis s).map GenesisDenom.denom
    · obtain ⟨x, hx, rfl⟩ := List.mem_map.1 hd
      rw [(r4 x hx).2]
      have q := (k2 x hx).2.2
      have w := h.described _ (k2 x hx).1
      cases hm : s.metadata x.denom with
      | none => rw [hm] at w; cases w
      | some m =>
        rw [hm] at q
        exact congrArg some q
    · rw [(r5 d hd).2]
      rfl

/-! ### Concrete cases -/

/-- Accounts `a` (0), `aa` (1); governance `aaaa`; a fee of five coins `uau`. -/
def cfg : Config := ⟨toy, ['a', 'a', 'a', 'a'], [(['u', 'a', 'u'], 5)], 100, fun _ => false, ['h'], fun _ _ => true⟩
def gold : Str := ['f', 'a', 'c', 't', 'o', 'r', 'y', '/', 'a', '/', 'g']
def start : State := empty (fun _ => none) (fun _ => 0) (fun _ _ => 20)

/-- Account 0 creates gold and mints 7; account 1 tries to mint; account 0 hands over to account 1, which mints 4; 3 are burnt. -/
def history : List Op :=
  [.tx [0] (.create ['a'] ['g'] ['G'] ['g'] 6), .tx [0] (.mint ['a'] gold 7), .tx [1] (.mint ['a', 'a'] gold 9),
   .tx [1] (.mint ['a'] gold 9), .tx [0] (.changeAdmin ['a'] gold ['a', 'a']), .tx [1] (.mint ['a', 'a'] gold 4),
   .tx [0] (.burn ['a'] gold 3), .tx [1] (.setMetadata ['a', 'a'] gold ⟨['G'], ['g'], 7, []⟩)]

example : (run cfg start history).supply gold = 8 ∧ (run cfg start history).admin gold = ['a', 'a'] ∧
    (run cfg start history).bal 0 ['u', 'a', 'u'] = 15 ∧ (run cfg start history).bal 0 gold = 24 ∧
    (run cfg start history).metadata gold = some ⟨['G'], ['g'], 6, []⟩ ∧
    exportGenesis (run cfg start history) = [⟨gold, ['a', 'a'], ['G'], ['g'], 6⟩] := by decide +kernel

example : Sound cfg start := empty_sound _ _ _ _

/-- The full property asks for a mint signed by the admin. A governance proposal can carry a mint message that names the admin as
sender: it mints without that signature. -/
theorem proposal_mints_without_signature :
    (run cfg start [.tx [0] (.create ['a'] ['g'] ['G'] ['g'] 6), .proposal (.mint ['a'] gold 1000)]).supply gold = 1000 ∧
    (run cfg start [.tx [0] (.create ['a'] ['g'] ['G'] ['g'] 6), .proposal (.changeAdmin ['a'] gold ['a', 'a'])]).admin gold =
      ['a', 'a'] := by decide +kernel

/-- The admin is a spelling, not an account: created with the address in upper case, the denomination refuses its own
creator when they write their address in lower case. -/
theorem admin_is_a_spelling :
    (run cfg start [.tx [0] (.create ['A'] ['g'] ['G'] ['g'] 6), .tx [0] (.mint ['a'] gold 7)]).supply gold = 0 ∧
    (run cfg start [.tx [0] (.create ['A'] ['g'] ['G'] ['g'] 6), .tx [0] (.mint ['A'] gold 7)]).supply gold = 7 := by decide +kernel

/-- Export and import lose the rest of the metadata. -/
theorem export_loses_description :
    (initGenesis cfg (exportGenesis (run cfg start [.tx [0] (.create ['a'] ['g'] ['G'] ['g'] 6),
        .tx [0] (.setMetadata ['a'] gold ⟨['G'], ['g'], 6, ['d']⟩)]))
      (empty (run cfg start [.tx [0] (.create ['a'] ['g'] ['G'] ['g'] 6),
        .tx [0] (.setMetadata ['a'] gold ⟨['G'], ['g'], 6, ['d']⟩)]).metadata (fun _ => 0) (fun _ _ => 0))).map
      (fun s => s.metadata gold) = some (some ⟨['G'], ['g'], 6, []⟩) ∧
    (run cfg start [.tx [0] (.create ['a'] ['g'] ['G'] ['g'] 6),
        .tx [0] (.setMetadata ['a'] gold ⟨['G'], ['g'], 6, ['d']⟩)]).metadata gold = some ⟨['G'], ['g'], 6, ['d']⟩ := by
  decide +kernel

end TokenFactory
