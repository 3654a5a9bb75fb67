import Verif.Revenue.Registry
/-!
# The registry of developer shares (C79)

The share of a contract goes to the account that deployed it or to whom that account named; nobody else can register, change or cancel it; and the two indexes
list exactly the contracts of an account. The last is false of the index of withdrawers in the code: contracts that are registered automatically are missing.
-/
namespace Revenue
open VM

/-! ### Specification -/

/-- The account `d` made `c`: directly or through a chain of contracts, by the addresses that creations have. -/
inductive Made (createAddr : Addr → Nat → Addr) (d : Addr) : Addr → Prop
  | direct (n : Nat) : Made createAddr d (createAddr d n)
  | via {c : Addr} (n : Nat) : Made createAddr d c → Made createAddr d (createAddr c n)

/-- Every entry names an account that made the contract. -/
def Rightful (createAddr : Addr → Nat → Addr) (r : Registry) : Prop := ∀ c e, KV.get r.entries c = some e → Made createAddr e.deployer c

/-- The index of deployers lists the contracts of each deployer. -/
def DeployersListed (r : Registry) : Prop := ∀ d c, (KV.get r.byDeployer (d, c)).isSome ↔ ∃ e, KV.get r.entries c = some e ∧ e.deployer = d

/-- The index of withdrawers lists the contracts of each account that is named as a withdrawer. -/
def WithdrawersListed (r : Registry) : Prop := ∀ w c, (KV.get r.byWithdrawer (w, c)).isSome ↔ ∃ e, KV.get r.entries c = some e ∧ e.withdrawer = some w

/-- What is true of the code: whoever is listed is named, and whoever is named and is not the deployer is listed. -/
def WithdrawersListedPartly (r : Registry) : Prop :=
  (∀ w c, (KV.get r.byWithdrawer (w, c)).isSome → ∃ e, KV.get r.entries c = some e ∧ e.withdrawer = some w) ∧
  ∀ w c e, KV.get r.entries c = some e → e.withdrawer = some w → w ≠ e.deployer → (KV.get r.byWithdrawer (w, c)).isSome

/-- Whose signature an operation has. -/
def Op.signer : Op → Addr
  | .created _ d _ => d
  | .register _ _ _ d _ _ _ => d
  | .update _ d _ _ => d
  | .cancel _ d _ => d

/-! ### Proof -/

theorem derive_made (f : Addr → Nat → Addr) (d : Addr) (ns : List Nat) : ∀ a, (a = d ∨ Made f d a) → ns ≠ [] ∨ Made f d a → Made f d (derive f a ns) := by
  induction ns with
  | nil => intro a _ h; exact h.resolve_left (fun h => h rfl)
  | cons n ns ih =>
    intro a h _
    have : Made f d (f a n) := by
      rcases h with h | h
      · rw [h]; exact .direct n
      · exact .via n h
    exact ih _ (Or.inr this) (Or.inr this)

theorem derive_nonempty {acc : Accounts} {d c : Addr} {ns : List Nat} (h1 : acc.contract d = false) (h2 : acc.contract c = true) (h : c = derive acc.createAddr d ns) : ns ≠ [] := by
  intro e
  rw [e] at h
  rw [show c = d from h, h1] at h2
  cases h2

/-- The changes a step can make, by the contract concerned. -/
inductive Change (createAddr : Addr → Nat → Addr) (signer : Addr) (r : Registry) : Registry → Prop
  | same : Change createAddr signer r r
  | auto (c : Addr) : KV.get r.entries c = none → Made createAddr signer c →
      Change createAddr signer r { r with entries := KV.set r.entries c ⟨signer, some signer⟩, byDeployer := KV.set r.byDeployer (signer, c) () }
  | new (c : Addr) (w : Option Addr) : KV.get r.entries c = none → Made createAddr signer c → w ≠ some signer →
      Change createAddr signer r ⟨KV.set r.entries c ⟨signer, w⟩, KV.set r.byDeployer (signer, c) (), addIndex r.byWithdrawer w c⟩
  | set (c : Addr) (e : Entry) (w : Option Addr) : KV.get r.entries c = some e → e.deployer = signer → w ≠ some signer → w ≠ e.withdrawer →
      Change createAddr signer r { r with entries := KV.set r.entries c { e with withdrawer := w }, byWithdrawer := addIndex (dropIndex r.byWithdrawer e.withdrawer c) w c }
  | gone (c : Addr) (e : Entry) : KV.get r.entries c = some e → e.deployer = signer →
      Change createAddr signer r ⟨KV.del r.entries c, KV.del r.byDeployer (e.deployer, c), dropIndex r.byWithdrawer e.withdrawer c⟩

theorem chosen_ne (d : Addr) (w : Option Addr) : chosen d w ≠ some d := by
  unfold chosen
  split
  · exact fun h => nomatch h
  · split
    · exact fun h => nomatch h
    · rename_i h
      exact fun h' => h (Option.some.inj h')

theorem not_isSome {α : Type} {o : Option α} (h : ¬ o.isSome = true) : o = none := by
  cases o with
  | none => rfl
  | some _ => exact absurd rfl h

theorem step_change (f : Addr → Nat → Addr) (r : Registry) (op : Op) : Change f op.signer r (step f r op) := by
  cases op with
  | created p d n =>
    show Change f d r (postCreation p r (f d n) d)
    unfold postCreation
    split
    · exact .same
    · split
      · exact .same
      · rename_i h
        exact .auto _ (not_isSome h) (.direct n)
  | register p ex co d c w ns =>
    show Change f d r ((register p ⟨ex, co, f⟩ r c d w ns).getD r)
    unfold register
    split
    · exact .same
    · split
      · exact .same
      · rename_i hc
        split
        · exact .same
        · rename_i hd
          split
          · exact .same
          · rename_i hk
            split
            · exact .same
            · rename_i he
              have he : c = derive f d ns := Decidable.not_not.mp he
              have hd : co d = false := Bool.eq_false_iff.mpr fun h => hd (Or.inr h)
              have hk : co c = true := by cases hcc : co c with
                | true => rfl
                | false => exact absurd (Or.inr (by first | exact hcc | simp [hcc])) hk
              have hm : Made f d c := by
                rw [he]
                exact derive_made f d ns d (Or.inl rfl) (Or.inl (derive_nonempty (acc := ⟨ex, co, f⟩) hd hk he))
              have := Change.new (r := r) c (chosen d w) (not_isSome hc) hm (chosen_ne d w)
              cases hch : chosen d w with
              | none => rw [hch] at this; exact this
              | some x => rw [hch] at this; exact this
  | update p d c w =>
    show Change f d r ((update p r c d w).getD r)
    unfold update
    split
    · exact .same
    · cases hg : KV.get r.entries c with
      | none => exact .same
      | some e =>
        dsimp only
        split
        · exact .same
        · rename_i hd
          split
          · exact .same
          · rename_i hw
            have hd : d = e.deployer := Decidable.not_not.mp hd
            refine .set c e _ hg hd.symm ?_ hw
            rw [hd]
            exact chosen_ne _ _
  | cancel p d c =>
    show Change f d r ((cancel p r c d).getD r)
    unfold cancel
    split
    · exact .same
    · cases hg : KV.get r.entries c with
      | none => exact .same
      | some e =>
        dsimp only
        split
        · exact .same
        · rename_i hd
          exact .gone c e hg (Decidable.not_not.mp hd).symm

theorem get_addIndex (l : List ((Addr × Addr) × Unit)) (w : Option Addr) (c x y : Addr) :
    (KV.get (addIndex l w c) (x, y)).isSome ↔ (w = some x ∧ c = y) ∨ (KV.get l (x, y)).isSome := by
  cases w with
  | none => simp [addIndex]
  | some w =>
    simp only [addIndex, KV.get_set]
    by_cases h : (x, y) = (w, c)
    · rw [if_pos h]
      cases h
      simp
    · rw [if_neg h]
      constructor
      · exact Or.inr
      · intro h'
        rcases h' with ⟨h1, h2⟩ | h'
        · cases h1; cases h2; exact absurd rfl h
        · exact h'

theorem get_dropIndex (l : List ((Addr × Addr) × Unit)) (w : Option Addr) (c x y : Addr) :
    (KV.get (dropIndex l w c) (x, y)).isSome ↔ ¬ (w = some x ∧ c = y) ∧ (KV.get l (x, y)).isSome := by
  cases w with
  | none => simp [dropIndex]
  | some w =>
    simp only [dropIndex, KV.get_del]
    by_cases h : (x, y) = (w, c)
    · rw [if_pos h]
      cases h
      simp
    · rw [if_neg h]
      constructor
      · exact fun h' => ⟨fun h2 => h (by rw [Option.some.inj h2.1, h2.2]), h'⟩
      · exact fun h' => h'.2

theorem change_rightful {f : Addr → Nat → Addr} {d : Addr} {r r' : Registry} (h : Change f d r r') (hr : Rightful f r) : Rightful f r' := by
  intro c e he
  cases h with
  | same => exact hr c e he
  | auto c' _ hm =>
    dsimp only at he
    rw [KV.get_set] at he
    split at he
    · rename_i hc; cases he; rw [hc]; exact hm
    · exact hr c e he
  | new c' w _ hm _ =>
    dsimp only at he
    rw [KV.get_set] at he
    split at he
    · rename_i hc; cases he; rw [hc]; exact hm
    · exact hr c e he
  | set c' e' w hg hd _ _ =>
    dsimp only at he
    rw [KV.get_set] at he
    split at he
    · rename_i hc; cases he; rw [hc]; exact hr c' e' hg
    · exact hr c e he
  | gone c' e' hg hd =>
    dsimp only at he
    rw [KV.get_del] at he
    split at he
    · cases he
    · exact hr c e he

theorem change_deployers {f : Addr → Nat → Addr} {d : Addr} {r r' : Registry} (h : Change f d r r') (hr : DeployersListed r) : DeployersListed r' := by
  have add : ∀ (c : Addr) (w : Option Addr), KV.get r.entries c = none → ∀ x y, (KV.get (KV.set r.byDeployer (d, c) ()) (x, y)).isSome ↔
      ∃ e, KV.get (KV.set r.entries c ⟨d, w⟩) y = some e ∧ e.deployer = x := by
    intro c w hc x y
    rw [KV.get_set, KV.get_set]
    by_cases hy : y = c
    · subst hy
      rw [if_pos rfl]
      constructor
      · intro h
        split at h
        · rename_i hx; cases hx; exact ⟨_, rfl, rfl⟩
        · obtain ⟨e, he, _⟩ := (hr x y).mp h
          rw [hc] at he
          cases he
      · rintro ⟨e, he, hx⟩
        cases he
        rw [← hx, if_pos rfl]
        rfl
    · rw [if_neg hy, if_neg (fun h => hy (by cases h; rfl))]
      exact hr x y
  intro x y
  cases h with
  | same => exact hr x y
  | auto c hc _ => exact add c _ hc x y
  | new c w hc _ _ => exact add c w hc x y
  | set c e w hg hd _ _ =>
    dsimp only
    rw [hr x y, KV.get_set]
    by_cases hy : y = c
    · subst hy
      rw [if_pos rfl, hg]
      constructor
      · rintro ⟨e', he, hx⟩; cases he; exact ⟨_, rfl, hx⟩
      · rintro ⟨e', he, hx⟩; cases he; exact ⟨_, rfl, hx⟩
    · rw [if_neg hy]
  | gone c e hg hd =>
    dsimp only
    rw [KV.get_del, KV.get_del]
    by_cases hy : y = c
    · subst hy
      rw [if_pos rfl]
      constructor
      · intro h
        split at h
        · cases h
        · rename_i hx
          obtain ⟨e', he, hx'⟩ := (hr x y).mp h
          rw [hg] at he
          cases he
          exact absurd (by rw [hx']) hx
      · rintro ⟨e', he, _⟩; cases he
    · rw [if_neg hy, if_neg (fun h => hy (by cases h; rfl))]
      exact hr x y

theorem change_withdrawers {f : Addr → Nat → Addr} {d : Addr} {r r' : Registry} (h : Change f d r r') (hr : WithdrawersListedPartly r) : WithdrawersListedPartly r' := by
  obtain ⟨h1, h2⟩ := hr
  have absent : ∀ c, KV.get r.entries c = none → ∀ w, ¬ (KV.get r.byWithdrawer (w, c)).isSome = true := by
    intro c hc w h
    obtain ⟨e, he, _⟩ := h1 w c h
    rw [hc] at he
    cases he
  cases h with
  | same => exact ⟨h1, h2⟩
  | auto c hc _ =>
    refine ⟨?_, ?_⟩
    · intro w y h
      dsimp only at h ⊢
      rw [KV.get_set]
      split
      · rename_i hy; rw [hy] at h; exact absurd h (absent c hc w)
      · exact h1 w y h
    · intro w y e he hw hne
      dsimp only at he ⊢
      rw [KV.get_set] at he
      split at he
      · cases he
        cases hw
        exact absurd rfl hne
      · exact h2 w y e he hw hne
  | new c w' hc _ hw' =>
    refine ⟨?_, ?_⟩
    · intro w y h
      dsimp only at h ⊢
      rw [KV.get_set]
      rcases (get_addIndex _ _ _ _ _).mp h with ⟨ha, hb⟩ | h
      · rw [if_pos hb.symm]
        exact ⟨_, rfl, ha⟩
      · split
        · rename_i hy; rw [hy] at h; exact absurd h (absent c hc w)
        · exact h1 w y h
    · intro w y e he hw hne
      dsimp only at he ⊢
      rw [KV.get_set] at he
      split at he
      · rename_i hy
        cases he
        exact (get_addIndex _ _ _ _ _).mpr (Or.inl ⟨hw, hy.symm⟩)
      · exact (get_addIndex _ _ _ _ _).mpr (Or.inr (h2 w y e he hw hne))
  | set c e0 w' hg hd hw' _ =>
    refine ⟨?_, ?_⟩
    · intro w y h
      dsimp only at h ⊢
      rw [KV.get_set]
      rcases (get_addIndex _ _ _ _ _).mp h with ⟨ha, hb⟩ | h
      · rw [if_pos hb.symm]
        exact ⟨_, rfl, ha⟩
      · obtain ⟨hn, h⟩ := (get_dropIndex _ _ _ _ _).mp h
        split
        · rename_i hy
          rw [hy] at h
          obtain ⟨e, he, hw⟩ := h1 w c h
          rw [hg] at he
          cases he
          exact absurd ⟨hw, hy.symm⟩ hn
        · exact h1 w y h
    · intro w y e he hw hne
      dsimp only at he ⊢
      rw [KV.get_set] at he
      split at he
      · rename_i hy
        cases he
        exact (get_addIndex _ _ _ _ _).mpr (Or.inl ⟨hw, hy.symm⟩)
      · rename_i hy
        exact (get_addIndex _ _ _ _ _).mpr (Or.inr ((get_dropIndex _ _ _ _ _).mpr ⟨fun h => hy h.2.symm, h2 w y e he hw hne⟩))
  | gone c e0 hg hd =>
    refine ⟨?_, ?_⟩
    · intro w y h
      dsimp only at h ⊢
      obtain ⟨hn, h⟩ := (get_dropIndex _ _ _ _ _).mp h
      rw [KV.get_del]
      split
      · rename_i hy
        rw [hy] at h
        obtain ⟨e, he, hw⟩ := h1 w c h
        rw [hg] at he
        cases he
        exact absurd ⟨hw, hy.symm⟩ hn
      · exact h1 w y h
    · intro w y e he hw hne
      dsimp only at he ⊢
      rw [KV.get_del] at he
      split at he
      · cases he
      · rename_i hy
        exact (get_dropIndex _ _ _ _ _).mpr ⟨fun h => hy h.2.symm, h2 w y e he hw hne⟩

/-- Induction over histories. -/
theorem run_induct {f : Addr → Nat → Addr} {P : Registry → Prop} (h0 : P {}) (hs : ∀ r op, P r → P (step f r op)) (ops : List Op) : P (run f {} ops) := by
  suffices ∀ r, P r → P (ops.foldl (step f) r) from this _ h0
  induction ops with
  | nil => exact fun r h => h
  | cons op ops ih => exact fun r h => ih _ (hs r op h)

/-! ### Theorems -/

/-- In every history, the deployer of an entry made the contract, directly or through contracts. -/
theorem shares_are_rightful (f : Addr → Nat → Addr) (ops : List Op) : Rightful f (run f {} ops) :=
  run_induct (fun _ _ h => nomatch h) (fun r op h => change_rightful (step_change f r op) h) ops

/-- Only the deployer of a registered contract changes who is paid for it. -/
theorem only_deployer_redirects (f : Addr → Nat → Addr) (r : Registry) (op : Op) {c : Addr} {e : Entry} (h : KV.get r.entries c = some e) (hs : op.signer ≠ e.deployer) :
    KV.get (step f r op).entries c = some e := by
  have hc := step_change f r op
  generalize step f r op = r' at hc
  cases hc with
  | same => exact h
  | auto c' hn _ =>
    dsimp only
    rw [KV.get_set, if_neg (fun hcc => by rw [← hcc, h] at hn; cases hn), h]
  | new c' w hn _ _ =>
    dsimp only
    rw [KV.get_set, if_neg (fun hcc => by rw [← hcc, h] at hn; cases hn), h]
  | set c' e' w hg hd _ _ =>
    dsimp only
    rw [KV.get_set, if_neg (fun hcc => by rw [← hcc, h] at hg; cases hg; exact hs hd.symm), h]
  | gone c' e' hg hd =>
    dsimp only
    rw [KV.get_del, if_neg (fun hcc => by rw [← hcc, h] at hg; cases hg; exact hs hd.symm), h]

/-- The deployer of an entry never changes while it lasts. -/
theorem deployer_is_fixed (f : Addr → Nat → Addr) (r : Registry) (op : Op) {c : Addr} {e e' : Entry} (h : KV.get r.entries c = some e) (h' : KV.get (step f r op).entries c = some e') :
    e'.deployer = e.deployer := by
  have hc := step_change f r op
  generalize step f r op = r' at hc h'
  cases hc with
  | same => rw [h] at h'; cases h'; rfl
  | auto c' hn _ =>
    dsimp only at h'
    rw [KV.get_set, if_neg (fun hcc => by rw [← hcc, h] at hn; cases hn), h] at h'
    cases h'; rfl
  | new c' w hn _ _ =>
    dsimp only at h'
    rw [KV.get_set, if_neg (fun hcc => by rw [← hcc, h] at hn; cases hn), h] at h'
    cases h'; rfl
  | set c' e0 w hg hd _ _ =>
    dsimp only at h'
    rw [KV.get_set] at h'
    split at h'
    · rename_i hcc; rw [← hcc, h] at hg; cases hg; cases h'; rfl
    · rw [h] at h'; cases h'; rfl
  | gone c' e0 hg hd =>
    dsimp only at h'
    rw [KV.get_del] at h'
    split at h'
    · cases h'
    · rw [h] at h'; cases h'; rfl

/-- In every history the index of deployers is right. -/
theorem deployers_are_listed (f : Addr → Nat → Addr) (ops : List Op) : DeployersListed (run f {} ops) :=
  run_induct (fun _ _ => ⟨fun h => (nomatch h), fun ⟨_, h, _⟩ => (nomatch h)⟩) (fun r op h => change_deployers (step_change f r op) h) ops

/-- Part of what the index of withdrawers should be: the missing part is that the deployer is listed when named. -/
theorem withdrawers_are_listed_partial (f : Addr → Nat → Addr) (ops : List Op) : WithdrawersListedPartly (run f {} ops) :=
  run_induct ⟨fun _ _ h => (nomatch h), fun _ _ _ h => (nomatch h)⟩ (fun r op h => change_withdrawers (step_change f r op) h) ops

/-- The full statement is false: a contract that is registered when it is created is not listed for its withdrawer. -/
theorem withdrawers_are_not_listed : ¬ ∀ (f : Addr → Nat → Addr) (ops : List Op), WithdrawersListed (run f {} ops) := by
  intro h
  have := (h (fun a n => a + BitVec.ofNat 160 n) [.created ⟨true, 1⟩ 0x11#160 5] 0x11#160 0x16#160).mpr ⟨⟨0x11#160, some 0x11#160⟩, by decide +kernel, rfl⟩
  revert this
  decide +kernel

/-- Who is paid after each operation. -/
theorem payee_after_created {f : Addr → Nat → Addr} {r : Registry} {p : Params} (hp : p.enabled = true) (hs : p.share ≠ 0) {d : Addr} {n : Nat} (h : KV.get r.entries (f d n) = none) :
    payee (step f r (.created p d n)) (f d n) = some d := by
  show payee (postCreation p r (f d n) d) (f d n) = some d
  unfold postCreation payee
  rw [if_neg (by simp [hp, hs]), if_neg (by rw [h]; simp)]
  dsimp only
  rw [KV.get_set, if_pos rfl]
  rfl

theorem payee_after_update {r r' : Registry} {p : Params} {c d : Addr} {w : Option Addr} (h : update p r c d w = some r') : payee r' c = some (w.getD d) := by
  unfold update at h
  split at h
  · cases h
  · cases hg : KV.get r.entries c with
    | none => rw [hg] at h; cases h
    | some e =>
      rw [hg] at h
      dsimp only at h
      split at h
      · cases h
      · rename_i hd
        have hd : d = e.deployer := Decidable.not_not.mp hd
        split at h
        · cases h
        · cases h
          unfold payee
          dsimp only
          rw [KV.get_set, if_pos rfl]
          show some ((chosen e.deployer w).getD e.deployer) = _
          rw [hd]
          unfold chosen
          cases w with
          | none => rfl
          | some x =>
            dsimp only
            split
            · rename_i hx; rw [hx]; rfl
            · rfl

theorem payee_after_register {p : Params} {acc : Accounts} {r r' : Registry} {c d : Addr} {w : Option Addr} {ns : List Nat} (h : register p acc r c d w ns = some r') : payee r' c = some (w.getD d) := by
  unfold register at h
  split at h
  · cases h
  · split at h
    · cases h
    · split at h
      · cases h
      · split at h
        · cases h
        · split at h
          · cases h
          · cases h
            unfold payee
            dsimp only
            rw [KV.get_set, if_pos rfl]
            show some ((chosen d w).getD d) = _
            unfold chosen
            cases w with
            | none => rfl
            | some x =>
              dsimp only
              split
              · rename_i hx; rw [hx]; rfl
              · rfl

theorem payee_after_cancel {p : Params} {r r' : Registry} {c d : Addr} (h : cancel p r c d = some r') : payee r' c = none := by
  unfold cancel at h
  split at h
  · cases h
  · cases hg : KV.get r.entries c with
    | none => rw [hg] at h; cases h
    | some e =>
      rw [hg] at h
      dsimp only at h
      split at h
      · cases h
      · cases h
        unfold payee
        dsimp only
        rw [KV.get_del, if_pos rfl]
        rfl

/-! ### Export and import -/

theorem init_entries (l : List (Addr × Entry)) (hd : KV.Distinct l) : ∀ r : Registry, (∀ e ∈ l, KV.get r.entries e.1 = none) →
    ∀ c, KV.get (l.foldl initEntry r).entries c = (KV.get l c).or (KV.get r.entries c) := by
  induction l with
  | nil => intro r _ c; rfl
  | cons e l ih =>
    intro r hr c
    have hd' : e.1 ∉ l.map (·.1) ∧ (l.map (·.1)).Nodup := List.nodup_cons.mp (by unfold KV.Distinct at hd; rwa [List.map_cons] at hd)
    have hne : ∀ e' ∈ l, e'.1 ≠ e.1 := fun e' he' h => hd'.1 (h ▸ List.mem_map_of_mem he')
    refine (ih hd'.2 (initEntry r e) ?_ c).trans ?_
    · intro e' he'
      show KV.get (KV.set r.entries e.1 e.2) e'.1 = none
      rw [KV.get_set, if_neg (hne e' he')]
      exact hr e' (List.mem_cons_of_mem _ he')
    · show (KV.get l c).or (KV.get (KV.set r.entries e.1 e.2) c) = _
      rw [KV.get_set, KV.get_cons]
      by_cases hc : c = e.1
      · rw [if_pos hc, if_pos hc.symm]
        have : KV.get l c = none := KV.get_eq_none.mpr fun e' he' h => hne e' he' (h.trans hc)
        rw [this]
        rfl
      · rw [if_neg hc, if_neg (fun h => hc h.symm)]

/-- The indexes after an import. -/
theorem init_indexes (l : List (Addr × Entry)) : ∀ r : Registry,
    (∀ d c, (KV.get (l.foldl initEntry r).byDeployer (d, c)).isSome ↔ (∃ e, (c, e) ∈ l ∧ e.deployer = d) ∨ (KV.get r.byDeployer (d, c)).isSome) ∧
    (∀ w c, (KV.get (l.foldl initEntry r).byWithdrawer (w, c)).isSome ↔ (∃ e, (c, e) ∈ l ∧ e.withdrawer = some w) ∨ (KV.get r.byWithdrawer (w, c)).isSome) := by
  induction l with
  | nil => exact fun r => ⟨fun _ _ => (by simp), fun _ _ => (by simp)⟩
  | cons e l ih =>
    intro r
    obtain ⟨h1, h2⟩ := ih (initEntry r e)
    refine ⟨fun d c => (h1 d c).trans ?_, fun w c => (h2 w c).trans ?_⟩
    · show _ ∨ (KV.get (KV.set r.byDeployer (e.2.deployer, e.1) ()) (d, c)).isSome ↔ _
      rw [KV.get_set]
      constructor
      · rintro (⟨e', he, hd⟩ | h)
        · exact Or.inl ⟨e', List.mem_cons_of_mem _ he, hd⟩
        · split at h
          · rename_i hx; cases hx; exact Or.inl ⟨e.2, List.mem_cons_self, rfl⟩
          · exact Or.inr h
      · rintro (⟨e', he, hd⟩ | h)
        · rcases List.mem_cons.mp he with he | he
          · right
            rw [← he, ← hd, if_pos rfl]
            rfl
          · exact Or.inl ⟨e', he, hd⟩
        · right
          split
          · rfl
          · exact h
    · show _ ∨ (KV.get (addIndex r.byWithdrawer e.2.withdrawer e.1) (w, c)).isSome ↔ _
      rw [get_addIndex]
      constructor
      · rintro (⟨e', he, hd⟩ | ⟨ha, hb⟩ | h)
        · exact Or.inl ⟨e', List.mem_cons_of_mem _ he, hd⟩
        · exact Or.inl ⟨e.2, by rw [← hb]; exact List.mem_cons_self, ha⟩
        · exact Or.inr h
      · rintro (⟨e', he, hd⟩ | h)
        · rcases List.mem_cons.mp he with he | he
          · exact Or.inr (Or.inl ⟨by rw [← he]; exact hd, by rw [← he]⟩)
          · exact Or.inl ⟨e', he, hd⟩
        · exact Or.inr (Or.inr h)

/-- Export and import keep who is paid for each contract, and after it both indexes are right. -/
theorem import_of_export {r : Registry} (hd : KV.Distinct r.entries) :
    (∀ c, KV.get (initGenesis r.entries).entries c = KV.get r.entries c) ∧ DeployersListed (initGenesis r.entries) ∧ WithdrawersListed (initGenesis r.entries) := by
  have he : ∀ c, KV.get (initGenesis r.entries).entries c = KV.get r.entries c := fun c =>
    (init_entries r.entries hd {} (fun _ _ => rfl) c).trans (by cases KV.get r.entries c <;> rfl)
  obtain ⟨h1, h2⟩ := init_indexes r.entries {}
  refine ⟨he, ?_, ?_⟩
  · intro d c
    refine (h1 d c).trans ?_
    rw [he]
    constructor
    · rintro (⟨e, hm, hx⟩ | h)
      · exact ⟨e, KV.get_of_mem hd hm, hx⟩
      · cases h
    · rintro ⟨e, hm, hx⟩
      exact Or.inl ⟨e, KV.mem_of_get hm, hx⟩
  · intro d c
    refine (h2 d c).trans ?_
    rw [he]
    constructor
    · rintro (⟨e, hm, hx⟩ | h)
      · exact ⟨e, KV.get_of_mem hd hm, hx⟩
      · cases h
    · rintro ⟨e, hm, hx⟩
      exact Or.inl ⟨e, KV.mem_of_get hm, hx⟩

/-- The entries of a history are distinct, so the import applies. -/
theorem entries_distinct (f : Addr → Nat → Addr) (ops : List Op) : KV.Distinct (run f {} ops).entries := by
  refine run_induct (P := fun r => KV.Distinct r.entries) List.nodup_nil (fun r op h => ?_) ops
  have hc := step_change f r op
  generalize step f r op = r' at hc
  cases hc with
  | same => exact h
  | auto c _ _ => exact KV.distinct_set h _ _
  | new c _ _ _ _ => exact KV.distinct_set h _ _
  | set c _ _ _ _ _ _ => exact KV.distinct_set h _ _
  | gone c _ _ _ => exact KV.distinct_del h _

/-! ### Examples -/

def demoCreate (a : Addr) (n : Nat) : Addr := a + BitVec.ofNat 160 (0x100 + n)
/-- 0x11 deploys 0x115 (registered on creation) and, through 0x115, 0x218; it registers the latter for 0x77, somebody else tries to take over, and 0x11 names 0x88. -/
def demoOps : List Op :=
  [.created ⟨true, 1⟩ 0x11#160 4, .register ⟨true, 1⟩ (fun _ => true) (fun a => decide (a ≠ 0x11#160)) 0x11#160 0x218#160 (some 0x77#160) [4, 3],
   .update ⟨true, 1⟩ 0x99#160 0x218#160 (some 0x99#160), .cancel ⟨true, 1⟩ 0x99#160 0x115#160, .update ⟨true, 1⟩ 0x11#160 0x115#160 (some 0x88#160)]
example : payee (run demoCreate {} demoOps) 0x115#160 = some 0x88#160 ∧ payee (run demoCreate {} demoOps) 0x218#160 = some 0x77#160 := by decide +kernel
example : ((run demoCreate {} demoOps).byWithdrawer.map (·.1)) = [(0x88#160, 0x115#160), (0x77#160, 0x218#160)] := by decide +kernel
example : (update ⟨true, 1⟩ (run demoCreate {} demoOps) 0x218#160 0x11#160 none).isSome = true ∧ (cancel ⟨true, 1⟩ (run demoCreate {} demoOps) 0x218#160 0x11#160).isSome = true ∧
    (register ⟨true, 1⟩ ⟨fun _ => true, fun a => decide (a ≠ 0x11#160), demoCreate⟩ {} 0x218#160 0x11#160 none [4, 3]).isSome = true := by decide +kernel

end Revenue
