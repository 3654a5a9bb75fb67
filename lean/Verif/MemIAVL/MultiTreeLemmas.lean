import Verif.MemIAVL.MultiTree
/-! Helper lemmas for the multi-tree. -/
namespace MemIAVL

/-! ### Sorting by name -/

def leName (a b : Name × Tree) : Bool := decide (a.1 ≤ b.1)

theorem leName_total (a b : Name × Tree) : (leName a b || leName b a) = true := by
  simp only [leName, Bool.or_eq_true, decide_eq_true_eq]; exact List.le_total a.1 b.1

theorem leName_trans (a b c : Name × Tree) (h1 : leName a b = true) (h2 : leName b c = true) : leName a c = true := by
  simp only [leName, decide_eq_true_eq] at *; exact List.le_trans h1 h2

/-- The list sorted by name. -/
abbrev sortNames (l : List (Name × Tree)) : List (Name × Tree) := StableSort.sortBy (fun a b => decide (a.1 ≤ b.1)) l

theorem sortNames_perm (l) : (sortNames l).Perm l := StableSort.sortBy_perm _ _

theorem nodup_names_perm {l l' : List (Name × Tree)} (h : l.Perm l') (hn : (l.map (·.1)).Nodup) : (l'.map (·.1)).Nodup :=
  (h.map (·.1)).nodup hn

theorem pair_eq {l : List (Name × Tree)} (hn : (l.map (·.1)).Nodup) {a b : Name × Tree} (ha : a ∈ l) (hb : b ∈ l)
    (h : a.1 = b.1) : a = b := by
  induction l with
  | nil => simp at ha
  | cons x l ih =>
    simp only [List.map_cons, List.nodup_cons] at hn
    rcases List.mem_cons.1 ha with rfl | ha' <;> rcases List.mem_cons.1 hb with rfl | hb'
    · rfl
    · exact absurd (List.mem_map.2 ⟨b, hb', h.symm⟩) hn.1
    · exact absurd (List.mem_map.2 ⟨a, ha', h⟩) hn.1
    · exact ih hn.2 ha' hb'

theorem sortNames_sorted {l : List (Name × Tree)} (hn : (l.map (·.1)).Nodup) :
    (sortNames l).Pairwise (fun a b => a.1 < b.1) := by
  have h := StableSort.sortBy_pairwise leName_trans leName_total l
  have hn' := nodup_names_perm (sortNames_perm l).symm hn
  have hd : (sortNames l).Pairwise (fun a b => a.1 ≠ b.1) := by
    simpa [List.Nodup, List.pairwise_map] using hn'
  refine (h.and hd).imp ?_
  intro a b hab
  have h1 : a.1 ≤ b.1 := by simpa [leName] using hab.1
  have h2 := hab.2
  grind

theorem nodup_of_sorted {l : List (Name × Tree)} (h : l.Pairwise (fun a b => a.1 < b.1)) : (l.map (·.1)).Nodup := by
  rw [List.Nodup, List.pairwise_map]
  refine h.imp ?_
  intro a b hab
  grind

theorem eq_of_sorted_perm {l l' : List (Name × Tree)} (h : l.Pairwise (fun a b => a.1 < b.1))
    (h' : l'.Pairwise (fun a b => a.1 < b.1)) (hp : l.Perm l') : l = l' := by
  refine List.Perm.eq_of_pairwise (le := fun a b => a.1 < b.1) ?_ h h' hp
  intro a b _ _ h1 h2
  grind

theorem sortNames_congr {l l' : List (Name × Tree)} (hp : l.Perm l') (hn : (l.map (·.1)).Nodup) :
    sortNames l = sortNames l' :=
  eq_of_sorted_perm (sortNames_sorted hn) (sortNames_sorted (nodup_names_perm hp hn))
    ((sortNames_perm l).trans (hp.trans (sortNames_perm l').symm))

theorem sortNames_of_sorted {l : List (Name × Tree)} (h : l.Pairwise (fun a b => a.1 < b.1)) : sortNames l = l :=
  eq_of_sorted_perm (sortNames_sorted (nodup_of_sorted h)) h (sortNames_perm l)

/-! ### One upgrade -/

theorem indexOf_some {l : List (Name × Tree)} {n : Name} {i : Nat} (h : indexOf l n = some i) :
    ∃ a t b, l = a ++ (n, t) :: b ∧ a.length = i ∧ n ∉ a.map (·.1) := by
  unfold indexOf at h
  rw [List.findIdx?_eq_some_iff_getElem] at h
  obtain ⟨hi, h1, h2⟩ := h
  refine ⟨l.take i, l[i].2, l.drop (i + 1), ?_, by simp; omega, ?_⟩
  · have h1 : l[i].1 = n := by simpa using h1
    have : (n, l[i].2) = l[i] := by rw [← h1]
    rw [this]; simp
  · intro hm
    simp only [List.mem_map] at hm
    obtain ⟨p, hp, rfl⟩ := hm
    obtain ⟨j, hj, rfl⟩ := List.mem_iff_getElem.1 hp
    have hj' : j < i := by simp at hj; omega
    have := h2 j hj'
    simp at this

theorem indexOf_none {l : List (Name × Tree)} {n : Name} : indexOf l n = none ↔ n ∉ l.map (·.1) := by
  simp only [indexOf, List.findIdx?_eq_none_iff, List.mem_map, not_exists, not_and, beq_eq_false_iff_ne, ne_eq]

theorem modify_mid {α : Type} (a b : List α) (x : α) (f : α → α) : (a ++ x :: b).modify a.length f = a ++ f x :: b := by
  induction a with
  | nil => simp
  | cons y a ih => simp [List.modify_succ_cons, ih]

theorem map_self {α : Type} {l : List α} {f : α → α} (h : ∀ x ∈ l, f x = x) : l.map f = l := by
  induction l with
  | nil => rfl
  | cons x l ih => simp [h x (by simp), ih fun y hy => h y (by simp [hy])]

theorem indexOf_isSome {l : List (Name × Tree)} {n : Name} (h : n ∈ l.map (·.1)) : ∃ i, indexOf l n = some i := by
  cases hi : indexOf l n with
  | none => exact absurd h (indexOf_none.1 hi)
  | some i => exact ⟨i, rfl⟩

theorem swapDelete_perm (a b : List (Name × Tree)) (x : Name × Tree) : (swapDelete (a ++ x :: b) a.length).Perm (a ++ b) := by
  unfold swapDelete
  rcases b.eq_nil_or_concat with rfl | ⟨b, y, rfl⟩
  · simp
  · have : (a ++ x :: (b.concat y)).getLast? = some y := by simp [List.getLast?_append, List.concat_eq_append, List.getLast?_cons]
    rw [this]
    simp only [List.concat_eq_append]
    have e : (a ++ x :: (b ++ [y])).set a.length y = a ++ y :: b ++ [y] := by simp
    rw [e, List.dropLast_concat]
    refine List.Perm.append_left a ?_
    exact (List.perm_append_comm (l₁ := [y]) (l₂ := b))

theorem filter_name {a b : List (Name × Tree)} {n : Name} {t : Tree} (hn : ((a ++ (n, t) :: b).map (·.1)).Nodup) :
    (a ++ (n, t) :: b).filter (fun p => p.1 ≠ n) = a ++ b := by
  simp only [List.map_append, List.map_cons, List.nodup_append, List.nodup_cons] at hn
  obtain ⟨_, ⟨h1, _⟩, h2⟩ := hn
  rw [List.filter_append, List.filter_cons]
  simp only [ne_eq, not_true_eq_false, decide_false, Bool.false_eq_true, if_false]
  congr 1
  · rw [List.filter_eq_self]; intro p hp
    have := h2 p.1 (List.mem_map_of_mem hp) n (by simp)
    simpa using this
  · rw [List.filter_eq_self]; intro p hp
    simp only [decide_not, Bool.not_eq_true', decide_eq_false_iff_not]
    rintro rfl; exact h1 (List.mem_map_of_mem hp)

theorem renameAt_eq {a b : List (Name × Tree)} {n m : Name} {t : Tree} (hn : ((a ++ (n, t) :: b).map (·.1)).Nodup) :
    renameAt (a ++ (n, t) :: b) a.length m = (a ++ (n, t) :: b).map (fun p => if p.1 = n then (m, p.2) else p) := by
  simp only [List.map_append, List.map_cons, List.nodup_append, List.nodup_cons] at hn
  obtain ⟨_, ⟨h1, _⟩, h2⟩ := hn
  unfold renameAt
  rw [modify_mid, List.map_append, List.map_cons]
  simp only [if_true]
  congr 1
  · symm; refine map_self fun p hp => ?_
    have := h2 p.1 (List.mem_map_of_mem hp) n (by simp)
    simp [this]
  · congr 1
    symm; refine map_self fun p hp => ?_
    have : p.1 ≠ n := by rintro rfl; exact h1 (List.mem_map_of_mem hp)
    simp [this]

/-- The effect of one upgrade as a set operation (proof device). -/
def upSpec (next : Nat) (l : List (Name × Tree)) (u : Upgrade) : Option (List (Name × Tree)) :=
  if u.delete then if u.name ∈ l.map (·.1) then some (l.filter (fun p => p.1 ≠ u.name)) else none
  else if u.renameFrom ≠ [] then
    if u.renameFrom ∈ l.map (·.1) then some (l.map (fun p => if p.1 = u.renameFrom then (u.name, p.2) else p)) else none
  else some (l ++ [(u.name, Tree.newWithInitialVersion next)])

theorem upgradeStep_spec {next l u r} (hn : (l.map (·.1)).Nodup) :
    (upgradeStep next l u = some r → ∃ r', upSpec next l u = some r' ∧ r.Perm r') ∧
    (upSpec next l u = some r → ∃ r', upgradeStep next l u = some r' ∧ r'.Perm r) := by
  unfold upgradeStep upSpec
  by_cases hd : u.delete
  · simp only [hd, if_true]
    cases hi : indexOf l u.name with
    | none => simp [indexOf_none.1 hi]
    | some i =>
      obtain ⟨a, t, b, rfl, rfl, h⟩ := indexOf_some hi
      have e := filter_name hn
      have p := swapDelete_perm a b (u.name, t)
      have hm : u.name ∈ (a ++ (u.name, t) :: b).map (·.1) := by simp
      simp only [Option.map_some, Option.some.injEq, hm, if_true]
      constructor
      · rintro rfl; exact ⟨_, rfl, by rw [e]; exact p⟩
      · rintro rfl; exact ⟨_, rfl, by rw [e]; exact p⟩
  · simp only [hd, Bool.false_eq_true, if_false]
    by_cases hr : u.renameFrom ≠ []
    · simp only [hr, ne_eq, not_false_eq_true, if_true]
      cases hi : indexOf l u.renameFrom with
      | none => simp [indexOf_none.1 hi]
      | some i =>
        obtain ⟨a, t, b, rfl, rfl, h⟩ := indexOf_some hi
        have e := renameAt_eq (m := u.name) hn
        have hm : u.renameFrom ∈ (a ++ (u.renameFrom, t) :: b).map (·.1) := by simp
        simp only [Option.map_some, Option.some.injEq, hm, if_true]
        constructor
        · rintro rfl; exact ⟨_, rfl, by rw [e]⟩
        · rintro rfl; exact ⟨_, rfl, by rw [e]⟩
    · simp only [hr, if_false, Option.some.injEq]
      exact ⟨fun h => ⟨_, h, .refl _⟩, fun h => ⟨_, h, .refl _⟩⟩

theorem upSpec_perm {next l l' u r} (hp : l.Perm l') (h : upSpec next l u = some r) :
    ∃ r', upSpec next l' u = some r' ∧ r.Perm r' := by
  have hm : ∀ n, n ∈ l.map (·.1) ↔ n ∈ l'.map (·.1) := fun n => (hp.map (·.1)).mem_iff
  unfold upSpec at *
  simp only [hm] at h
  split at h
  · split at h
    · cases h; rename_i h1 h2; simp only [h1, h2, if_true]; exact ⟨_, rfl, hp.filter _⟩
    · cases h
  · split at h
    · split at h
      · cases h; rename_i h1 h2 h3; rw [if_neg h1, if_pos h2, if_pos h3]; exact ⟨_, rfl, hp.map _⟩
      · cases h
    · cases h; rename_i h1 h2; rw [if_neg h1, if_neg h2]; exact ⟨_, rfl, hp.append_right _⟩

theorem upgradeStep_perm {next l l' u r} (hp : l.Perm l') (hn : (l.map (·.1)).Nodup) (h : upgradeStep next l u = some r) :
    ∃ r', upgradeStep next l' u = some r' ∧ r.Perm r' := by
  obtain ⟨a, ha, h1⟩ := (upgradeStep_spec hn).1 h
  obtain ⟨b, hb, h2⟩ := upSpec_perm hp ha
  obtain ⟨c, hc, h3⟩ := (upgradeStep_spec (nodup_names_perm hp hn)).2 hb
  exact ⟨c, hc, h1.trans (h2.trans h3.symm)⟩

/-! ### Lists of upgrades -/

theorem upgradeFold_perm {next : Nat} {us : List Upgrade} {l l' r : List (Name × Tree)} (hp : l.Perm l')
    (hc : ∀ n r, (us.take n).foldlM (upgradeStep next) l = some r → (r.map (·.1)).Nodup)
    (h : us.foldlM (upgradeStep next) l = some r) :
    ∃ r', us.foldlM (upgradeStep next) l' = some r' ∧ r.Perm r' := by
  induction us generalizing l l' with
  | nil => simp only [List.foldlM_nil, Option.pure_def, Option.some.injEq] at h; subst h; exact ⟨l', rfl, hp⟩
  | cons u us ih =>
    simp only [List.foldlM_cons, Option.bind_eq_bind] at h ⊢
    obtain ⟨m, hm, h⟩ := Option.bind_eq_some_iff.1 h
    obtain ⟨m', hm', hp'⟩ := upgradeStep_perm hp (hc 0 l rfl) hm
    obtain ⟨r', hr', h2⟩ := ih hp' (fun n r hr => hc (n + 1) r (by simp [hm, hr])) h
    exact ⟨r', by simp [hm', hr'], h2⟩

namespace MultiTree

theorem applyUpgrades_some {t t' : MultiTree} {us} (h : t.applyUpgrades us = some t') :
    t'.version = t.version ∧ t'.initialVersion = t.initialVersion ∧ t'.infos = t.infos ∧
      ((us = [] ∧ t' = t) ∨ (us ≠ [] ∧ ∃ l, us.foldlM (upgradeStep (nextVersion t.version t.initialVersion)) t.trees = some l ∧
        (l.map (·.1)).Nodup ∧ t'.trees = sortNames l)) := by
  unfold applyUpgrades at h
  split at h
  · cases h; rename_i h; exact ⟨rfl, rfl, rfl, .inl ⟨h, rfl⟩⟩
  · obtain ⟨l, hl, h⟩ := Option.bind_eq_some_iff.1 h
    simp only at h
    split at h
    · cases h; rename_i h1 h2
      exact ⟨rfl, rfl, rfl, .inr ⟨h1, l, hl, nodup_names_perm (sortNames_perm l) h2, rfl⟩⟩
    · cases h

theorem applyUpgrades_of {t : MultiTree} {us l} (h0 : us ≠ [])
    (h : us.foldlM (upgradeStep (nextVersion t.version t.initialVersion)) t.trees = some l) (hn : (l.map (·.1)).Nodup) :
    t.applyUpgrades us = some { t with trees := sortNames l } := by
  unfold applyUpgrades
  have : ((sortNames l).map (·.1)).Nodup := nodup_names_perm (sortNames_perm l).symm hn
  rw [if_neg h0, h]
  simp only [Option.bind_some]
  rw [if_pos this]

theorem applyUpgrades_append {t t1 t2 : MultiTree} {us vs} (h1 : t.applyUpgrades us = some t1) (h2 : t1.applyUpgrades vs = some t2)
    (hc : us = [] ∨ ∀ n r, (vs.take n).foldlM (upgradeStep (nextVersion t1.version t1.initialVersion)) t1.trees = some r →
      (r.map (·.1)).Nodup) :
    t.applyUpgrades (us ++ vs) = some t2 := by
  obtain ⟨e1, e2, e3, h1'⟩ := applyUpgrades_some h1
  rcases h1' with ⟨rfl, rfl⟩ | ⟨h0, l, hl, hn, ht⟩
  · exact h2
  · rcases hc with rfl | hc
    · exact absurd rfl h0
    obtain ⟨f1, f2, f3, h2'⟩ := applyUpgrades_some h2
    rcases h2' with ⟨rfl, rfl⟩ | ⟨g0, m, hm, hmn, hmt⟩
    · rw [List.append_nil]; exact h1
    · rw [ht] at hm hc
      obtain ⟨m', hm', hp⟩ := upgradeFold_perm (sortNames_perm l) hc hm
      rw [e1, e2] at hm'
      rw [applyUpgrades_of (l := m') (by simp [h0]) (by rw [List.foldlM_append]; simp [hl, hm']) (nodup_names_perm hp hmn)]
      congr 1
      rw [← sortNames_congr hp hmn, ← hmt]
      cases t2; simp_all

end MultiTree

/-! ### Change sets -/

/-- All pairs meant for one store, in order. -/
def forName (n : Name) (css : List NamedChangeSet) : List Pair := (css.filter (fun c => c.name == n)).flatMap (·.pairs)

def applyTo (css : List NamedChangeSet) (l : List (Name × Tree)) : List (Name × Tree) :=
  l.map fun p => (p.1, p.2.applyPairs (forName p.1 css))

theorem names_applyTo (css l) : (applyTo css l).map (·.1) = l.map (·.1) := by simp [applyTo, Function.comp_def]

theorem applyPairs_append (t : Tree) (a b : List Pair) : t.applyPairs (a ++ b) = (t.applyPairs a).applyPairs b := by
  simp [Tree.applyPairs]

theorem version_applyPairs (t : Tree) (a : List Pair) : (t.applyPairs a).version = t.version := by
  induction a generalizing t with
  | nil => rfl
  | cons p a ih =>
    rw [show t.applyPairs (p :: a) = (t.applyPairs [p]).applyPairs a from applyPairs_append t [p] a, ih]
    simp only [Tree.applyPairs, List.foldl_cons, List.foldl_nil]
    split <;> rfl

theorem applyTo_append (a b l) : applyTo (a ++ b) l = applyTo b (applyTo a l) := by
  simp [applyTo, forName, applyPairs_append]

theorem modify_name {l : List (Name × Tree)} {i : Nat} {c : NamedChangeSet} (hn : (l.map (·.1)).Nodup)
    (h : indexOf l c.name = some i) :
    l.modify i (fun p => (p.1, p.2.applyPairs c.pairs)) = applyTo [c] l := by
  obtain ⟨a, t, b, rfl, rfl, h⟩ := indexOf_some h
  rw [modify_mid]
  simp only [List.map_append, List.map_cons, List.nodup_append, List.nodup_cons] at hn
  obtain ⟨_, ⟨h1, _⟩, h2⟩ := hn
  have key : ∀ p : Name × Tree, p.1 ≠ c.name → (p.1, p.2.applyPairs (forName p.1 [c])) = p := by
    intro p hp
    have : (c.name == p.1) = false := by simpa using fun h => hp h.symm
    simp [forName, this, Tree.applyPairs]
  simp only [applyTo, List.map_append, List.map_cons]
  congr 1
  · exact (map_self fun p hp => key p (h2 p.1 (List.mem_map_of_mem hp) c.name (by simp))).symm
  · congr 1
    · simp [forName]
    · exact (map_self fun p hp => key p (by rintro e; exact h1 (e ▸ List.mem_map_of_mem hp))).symm

namespace MultiTree

theorem applyChangeSet_eq {t : MultiTree} {c} (hn : (t.trees.map (·.1)).Nodup) :
    t.applyChangeSet c = if c.name ∈ t.trees.map (·.1) then some { t with trees := applyTo [c] t.trees } else none := by
  unfold applyChangeSet
  cases hi : indexOf t.trees c.name with
  | none => rw [if_neg (indexOf_none.1 hi)]; rfl
  | some i =>
    have : c.name ∈ t.trees.map (·.1) := by
      obtain ⟨a, t', b, h, -, -⟩ := indexOf_some hi
      rw [h]; simp
    rw [if_pos this, Option.map_some, modify_name hn hi]

theorem applyChangeSets_eq {t : MultiTree} {css t'} (hn : (t.trees.map (·.1)).Nodup) :
    t.applyChangeSets css = (t', true) ↔
      (∀ c ∈ css, c.name ∈ t.trees.map (·.1)) ∧ t' = { t with trees := applyTo css t.trees } := by
  induction css generalizing t with
  | nil =>
    have : applyTo [] t.trees = t.trees := by
      unfold applyTo; exact map_self fun p _ => by simp [forName, Tree.applyPairs]
    simp only [applyChangeSets, Prod.mk.injEq, and_true, List.not_mem_nil, false_implies, implies_true, true_and, this]
    exact eq_comm
  | cons c css ih =>
    simp only [applyChangeSets, applyChangeSet_eq hn]
    by_cases hc : c.name ∈ t.trees.map (·.1)
    · rw [if_pos hc]
      simp only
      rw [ih (by simp only [names_applyTo]; exact hn)]
      simp only [names_applyTo, List.mem_cons, forall_eq_or_imp, hc, true_and]
      rw [← applyTo_append]; rfl
    · rw [if_neg hc]
      constructor
      · intro h; cases h
      · rintro ⟨h, -⟩; exact absurd (h c (by simp)) hc

end MultiTree

end MemIAVL
