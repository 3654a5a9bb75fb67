import Verif.Hyperion.EvidenceSpec
/-!
# Evidence of bad signatures: lemmas
-/
namespace Evidence

theorem evidence_slashed {e : Env} {s s' : State} {x : Subject} {sig : Sig} {v : Val} (h : evidence e s x sig = .slashed s' v) :
    ∃ a st f, (x.bridge, checkpoint e x) ∉ s.past ∧ e.recover (checkpoint e x) sig = some a ∧ s.byEth x.bridge a = some v ∧ s.status v = some st ∧
      s.fraction x.bridge = some f ∧ st ≠ .unbonded ∧
      s' = { s with tokens := fun w => if w = v then s.tokens w - burn e st (s.tokens w) f else s.tokens w } := by
  unfold evidence at h
  split at h
  · cases h
  rename_i hp
  split at h
  · cases h
  rename_i a ha
  split at h
  · cases h
  rename_i v' hv
  split at h
  · cases h
  rename_i st hst
  split at h
  · cases h
  rename_i f hf
  split at h
  · cases h
  rename_i hu
  injection h with h1 h2
  subst h2
  exact ⟨a, st, f, hp, ha, hv, hst, hf, hu, h1.symm⟩

theorem evidence_of {e : Env} {s : State} {x : Subject} {sig : Sig} {v : Val} {a : Addr} {st : Status} {f : Nat} (hp : (x.bridge, checkpoint e x) ∉ s.past)
    (ha : e.recover (checkpoint e x) sig = some a) (hv : s.byEth x.bridge a = some v) (hst : s.status v = some st) (hf : s.fraction x.bridge = some f)
    (hu : st ≠ .unbonded) :
    evidence e s x sig = .slashed { s with tokens := fun w => if w = v then s.tokens w - burn e st (s.tokens w) f else s.tokens w } v := by
  unfold evidence
  rw [if_neg hp, ha]
  dsimp only
  rw [hv]
  dsimp only
  rw [hst]
  dsimp only
  rw [hf]
  dsimp only
  rw [if_neg hu]

theorem file_cases (e : Env) (s : State) (x : Subject) :
    file e s x = s ∨ file e s x = { s with past := (x.bridge, checkpoint e x) :: s.past, asked := (x.bridge, x) :: s.asked } := by
  unfold file
  split
  · exact Or.inl rfl
  · exact Or.inr rfl

/-- Every item filed is in the archive under its bridge. -/
def Filed (e : Env) (s : State) : Prop := ∀ b y, (b, y) ∈ s.asked → (b, checkpoint e y) ∈ s.past

theorem filed_step {e : Env} {s : State} {o : Op} (h : Filed e s) (ho : o ≠ .restart) : Filed e (step e s o) := by
  cases o with
  | ask x =>
    show Filed e (file e s x)
    rcases file_cases e s x with hf | hf
    · rw [hf]; exact h
    · rw [hf]
      intro b y hy
      rcases List.mem_cons.1 hy with hy | hy
      · injection hy with h1 h2
        subst h2
        rw [h1]
        exact List.mem_cons_self ..
      · exact List.mem_cons_of_mem _ (h b y hy)
  | evidence x sig =>
    unfold step; dsimp only
    split
    · rename_i s' v hs
      obtain ⟨_, _, _, _, _, _, _, _, _, rfl⟩ := evidence_slashed hs
      exact h
    · exact h
  | register b v a => exact h
  | stake v st t => exact h
  | params b f => exact h
  | restart => exact absurd rfl ho

theorem filed_run {e : Env} {os : List Op} : ∀ {s : State}, Filed e s → (∀ o ∈ os, o ≠ .restart) → Filed e (run e s os) := by
  induction os with
  | nil => intro s h _; exact h
  | cons o os ih =>
    intro s h ho
    exact ih (filed_step h (ho o (List.mem_cons_self ..))) (fun q hq => ho q (List.mem_cons_of_mem _ hq))

theorem past_step {e : Env} {s : State} {o : Op} {p : Bridge × Hash} (h : p ∈ s.past) (ho : o ≠ .restart) : p ∈ (step e s o).past := by
  cases o with
  | ask x =>
    show p ∈ (file e s x).past
    rcases file_cases e s x with hf | hf
    · rw [hf]; exact h
    · rw [hf]; exact List.mem_cons_of_mem _ h
  | evidence x sig =>
    unfold step; dsimp only
    split
    · rename_i s' v hs
      obtain ⟨_, _, _, _, _, _, _, _, _, rfl⟩ := evidence_slashed hs
      exact h
    · exact h
  | register b v a => exact h
  | stake v st t => exact h
  | params b f => exact h
  | restart => exact absurd rfl ho

theorem past_run {e : Env} {os : List Op} {p : Bridge × Hash} : ∀ {s : State}, p ∈ s.past → (∀ o ∈ os, o ≠ .restart) → p ∈ (run e s os).past := by
  induction os with
  | nil => intro s h _; exact h
  | cons o os ih =>
    intro s h ho
    exact ih (past_step h (ho o (List.mem_cons_self ..))) (fun q hq => ho q (List.mem_cons_of_mem _ hq))

theorem map_pair_inj : ∀ {l l' : List Tx}, l.map (·.amount) = l'.map (·.amount) → l.map (·.dest) = l'.map (·.dest) →
    l.map (fun t => (t.dest, t.amount)) = l'.map (fun t => (t.dest, t.amount))
  | [], [], _, _ => rfl
  | [], _ :: _, h, _ => by cases h
  | _ :: _, [], h, _ => by cases h
  | a :: l, b :: l', h1, h2 => by
    injection h1 with h3 h4
    injection h2 with h5 h6
    rw [List.map_cons, List.map_cons, map_pair_inj h4 h6]
    congr 1
    exact Prod.ext h5 h3

theorem map_pair_proj {l l' : List Tx} (h : l.map (fun t => (t.dest, t.amount)) = l'.map (fun t => (t.dest, t.amount))) :
    l.map (·.amount) = l'.map (·.amount) ∧ l.map (·.dest) = l'.map (·.dest) ∧ l.map (fun _ => (0 : Nat)) = l'.map (fun _ => 0) := by
  have h1 := congrArg (List.map (·.2)) h
  have h2 := congrArg (List.map (·.1)) h
  have h3 := congrArg (List.map (fun _ => (0 : Nat))) h
  rw [List.map_map, List.map_map] at h1 h2 h3
  exact ⟨h1, h2, h3⟩

theorem members_inj : ∀ {l l' : List (Addr × Nat)}, l.map (·.1) = l'.map (·.1) → l.map (·.2) = l'.map (·.2) → l = l'
  | [], [], _, _ => rfl
  | [], _ :: _, h, _ => by cases h
  | _ :: _, [], h, _ => by cases h
  | a :: l, b :: l', h1, h2 => by
    injection h1 with h3 h4
    injection h2 with h5 h6
    rw [members_inj h4 h6]
    congr 1
    exact Prod.ext h3 h5

theorem pack_iff {x y : Subject} : pack x = pack y ↔ SameMessage x y := by
  cases x with
  | batch b =>
    cases y with
    | batch c =>
      unfold pack SameMessage
      dsimp only
      constructor
      · intro h
        injection h with h1 h2 h3 h4 h5 h6
        exact ⟨h4, h5, h6, map_pair_inj h1 h2⟩
      · rintro ⟨h1, h2, h3, h4⟩
        obtain ⟨g1, g2, g3⟩ := map_pair_proj h4
        rw [g1, g2, g3, h1, h2, h3]
    | valset w => exact ⟨fun h => (by cases h), False.elim⟩
  | valset v =>
    cases y with
    | batch c => exact ⟨fun h => (by cases h), False.elim⟩
    | valset w =>
      unfold pack SameMessage
      dsimp only
      constructor
      · intro h
        injection h with h1 h2 h3 h4 h5
        exact ⟨h1, members_inj h2 h3, h4, h5⟩
      · rintro ⟨h1, h2, h3, h4⟩
        rw [h1, h2, h3, h4]

end Evidence
