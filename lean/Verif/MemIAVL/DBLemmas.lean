import Verif.MemIAVL.DBSpec
import Verif.MemIAVL.MultiTreeLemmas
/-! Helper lemmas for the database model: well-formed multi-trees, pending log. -/
namespace MemIAVL

variable (H : Bytes → Bytes)

/-- Sorted names; all trees at the version below the next one. -/
structure MultiTree.Good (t : MultiTree) : Prop where
  sorted : t.trees.Pairwise (fun a b => a.1 < b.1)
  vers : ∀ p ∈ t.trees, p.2.version + 1 = nextVersion t.version t.initialVersion

namespace MultiTree

theorem nextVersion_pos (v i : Nat) : 0 < nextVersion v i := by unfold nextVersion; split <;> omega

theorem Good.nodup {t : MultiTree} (h : t.Good) : (t.trees.map (·.1)).Nodup := nodup_of_sorted h.sorted

theorem newWithInitialVersion_version {n : Nat} (h : 0 < n) : (Tree.newWithInitialVersion n).version + 1 = n := by
  unfold Tree.newWithInitialVersion; split <;> simp only [Tree.empty] <;> omega

theorem mem_swapDelete {l : List (Name × Tree)} {i : Nat} {p} (h : p ∈ swapDelete l i) : p ∈ l := by
  unfold swapDelete at h
  split at h
  · exact h
  · rename_i x hx
    rcases List.mem_or_eq_of_mem_set (List.dropLast_subset _ h) with h | h
    · exact h
    · rw [h]; exact List.mem_of_getLast? hx

theorem mem_renameAt {l : List (Name × Tree)} {i : Nat} {n p} (h : p ∈ renameAt l i n) : ∃ q ∈ l, q.2 = p.2 := by
  unfold renameAt at h
  obtain ⟨j, hj⟩ := List.mem_iff_getElem?.1 h
  rw [List.getElem?_modify] at hj
  cases hl : l[j]? with
  | none => simp [hl] at hj
  | some q =>
    simp only [hl, Option.map_eq_map, Option.map_some, Option.some.injEq] at hj
    refine ⟨q, List.mem_of_getElem? hl, ?_⟩
    rw [← hj]; split <;> rfl

theorem vers_upgradeStep {next : Nat} (hp : 0 < next) {l r : List (Name × Tree)} {u} (h : upgradeStep next l u = some r)
    (hv : ∀ p ∈ l, p.2.version + 1 = next) : ∀ p ∈ r, p.2.version + 1 = next := by
  unfold upgradeStep at h
  split at h
  · obtain ⟨i, -, rfl⟩ := Option.map_eq_some_iff.1 h
    exact fun p hp => hv p (mem_swapDelete hp)
  · split at h
    · obtain ⟨i, -, rfl⟩ := Option.map_eq_some_iff.1 h
      intro p hp
      obtain ⟨q, hq, e⟩ := mem_renameAt hp
      rw [← e]; exact hv q hq
    · cases h
      intro p hp'
      rcases List.mem_append.1 hp' with h | h
      · exact hv p h
      · simp only [List.mem_singleton] at h; subst h; exact newWithInitialVersion_version hp

theorem vers_upgradeFold {next : Nat} (hp : 0 < next) {us : List Upgrade} {l r : List (Name × Tree)} (h : us.foldlM (upgradeStep next) l = some r)
    (hv : ∀ p ∈ l, p.2.version + 1 = next) : ∀ p ∈ r, p.2.version + 1 = next := by
  induction us generalizing l with
  | nil => simp only [List.foldlM_nil, Option.pure_def, Option.some.injEq] at h; subst h; exact hv
  | cons u us ih =>
    simp only [List.foldlM_cons, Option.bind_eq_bind] at h
    obtain ⟨m, hm, h⟩ := Option.bind_eq_some_iff.1 h
    exact ih h (vers_upgradeStep hp hm hv)

theorem Good.applyUpgrades {t t' : MultiTree} {us} (hg : t.Good) (h : t.applyUpgrades us = some t') : t'.Good := by
  obtain ⟨e1, e2, e3, ⟨rfl, rfl⟩ | ⟨h0, l, hl, hn, ht⟩⟩ := applyUpgrades_some h
  · exact hg
  · refine ⟨by rw [ht]; exact sortNames_sorted hn, ?_⟩
    rw [ht, e1, e2]
    intro p hp
    exact vers_upgradeFold (nextVersion_pos _ _) hl hg.vers p ((sortNames_perm l).mem_iff.1 hp)

theorem sorted_applyTo {css l} (h : l.Pairwise (fun a b : Name × Tree => a.1 < b.1)) :
    (applyTo css l).Pairwise (fun a b => a.1 < b.1) := by
  unfold applyTo; rw [List.pairwise_map]; exact h

theorem Good.applyTo {t : MultiTree} {css} (hg : t.Good) : ({ t with trees := applyTo css t.trees } : MultiTree).Good := by
  refine ⟨sorted_applyTo hg.sorted, ?_⟩
  intro p hp
  simp only [MemIAVL.applyTo, List.mem_map] at hp
  obtain ⟨q, hq, rfl⟩ := hp
  simp only [version_applyPairs]
  exact hg.vers q hq

theorem Good.applyChangeSets {t t' : MultiTree} {css} (hg : t.Good) (h : t.applyChangeSets css = (t', true)) : t'.Good := by
  obtain ⟨-, rfl⟩ := (applyChangeSets_eq hg.nodup).1 h
  exact hg.applyTo

theorem applyWALEntry_some {t t' : MultiTree} {e} :
    t.applyWALEntry e = some t' ↔ ∃ m, t.applyUpgrades e.upgrades = some m ∧ m.applyChangeSets e.changesets = (t', true) := by
  unfold applyWALEntry
  rw [Option.bind_eq_some_iff]
  refine exists_congr fun m => and_congr_right fun _ => ?_
  generalize m.applyChangeSets e.changesets = x
  obtain ⟨a, b⟩ := x
  cases b <;> simp

theorem Good.applyWALEntry {t t' : MultiTree} {e} (hg : t.Good) (h : t.applyWALEntry e = some t') : t'.Good := by
  obtain ⟨m, h1, h2⟩ := applyWALEntry_some.1 h
  exact (hg.applyUpgrades h1).applyChangeSets h2

theorem applyChangeSets_fields {t t' : MultiTree} {css b} (h : t.applyChangeSets css = (t', b)) :
    t'.version = t.version ∧ t'.initialVersion = t.initialVersion ∧ t'.infos = t.infos := by
  induction css generalizing t with
  | nil => simp only [MultiTree.applyChangeSets, Prod.mk.injEq] at h; obtain ⟨rfl, -⟩ := h; exact ⟨rfl, rfl, rfl⟩
  | cons c css ih =>
    simp only [MultiTree.applyChangeSets] at h
    cases hc : t.applyChangeSet c with
    | none => simp only [hc, Prod.mk.injEq] at h; obtain ⟨rfl, -⟩ := h; exact ⟨rfl, rfl, rfl⟩
    | some t1 =>
      simp only [hc] at h
      have := ih h
      unfold MultiTree.applyChangeSet at hc
      obtain ⟨i, -, rfl⟩ := Option.map_eq_some_iff.1 hc
      exact this

theorem applyWALEntry_fields {t t' : MultiTree} {e} (h : t.applyWALEntry e = some t') :
    t'.version = t.version ∧ t'.initialVersion = t.initialVersion ∧ t'.infos = t.infos := by
  obtain ⟨m, h1, h2⟩ := applyWALEntry_some.1 h
  obtain ⟨a1, a2, a3, -⟩ := applyUpgrades_some h1
  obtain ⟨b1, b2, b3⟩ := applyChangeSets_fields h2
  exact ⟨b1.trans a1, b2.trans a2, b3.trans a3⟩

theorem applyWALEntry_empty (t : MultiTree) : t.applyWALEntry {} = some t := rfl

/-! ### Saving -/

theorem saveTrees_some {l l' : List (Name × Tree)} (h : saveTrees l = some l') :
    l' = l.map (fun p => (p.1, { p.2 with version := p.2.version + 1 })) := by
  induction l generalizing l' with
  | nil => simp only [saveTrees, Option.some.injEq] at h; subst h; rfl
  | cons p l ih =>
    obtain ⟨n, t⟩ := p
    simp only [saveTrees] at h
    obtain ⟨t', ht, h⟩ := Option.bind_eq_some_iff.1 h
    obtain ⟨r, hr, rfl⟩ := Option.map_eq_some_iff.1 h
    unfold Tree.saveVersion at ht
    split at ht
    · cases ht
    · cases ht; rw [ih hr]; rfl

theorem saveVersion_true (t : MultiTree) : t.saveVersion H true = (t.saveVersion H false).map (updateCommitInfo H) := by
  unfold saveVersion
  cases saveTrees t.trees <;> rfl

theorem saveVersion_fields {t t' : MultiTree} {b} (h : t.saveVersion H b = some t') :
    t'.version = nextVersion t.version t.initialVersion ∧ t'.initialVersion = t.initialVersion ∧
      t'.trees = t.trees.map (fun p => (p.1, { p.2 with version := p.2.version + 1 })) := by
  unfold saveVersion at h
  obtain ⟨l, hl, rfl⟩ := Option.map_eq_some_iff.1 h
  rw [saveTrees_some hl]
  cases b <;> exact ⟨rfl, rfl, rfl⟩

theorem nextVersion_next (v i : Nat) : nextVersion (nextVersion v i) i = nextVersion v i + 1 := by
  have := nextVersion_pos v i
  generalize nextVersion v i = w at *
  unfold nextVersion
  rw [if_neg (by omega)]

theorem Good.saveVersion {t t' : MultiTree} {b} (hg : t.Good) (h : t.saveVersion H b = some t') : t'.Good := by
  obtain ⟨e1, e2, e3⟩ := saveVersion_fields H h
  refine ⟨?_, ?_⟩
  · rw [e3, List.pairwise_map]; exact hg.sorted
  · rw [e3, e1, e2, nextVersion_next]
    intro p hp
    obtain ⟨q, hq, rfl⟩ := List.mem_map.1 hp
    simp only [hg.vers q hq]

/-! ### The commit info plays no role -/

/-- Without the commit info. -/
def core (t : MultiTree) : MultiTree := { t with infos := [] }

theorem core_applyUpgrades (t : MultiTree) (us) : t.core.applyUpgrades us = (t.applyUpgrades us).map core := by
  unfold applyUpgrades core
  split
  · rfl
  · simp only
    cases us.foldlM (upgradeStep (nextVersion t.version t.initialVersion)) t.trees with
    | none => rfl
    | some l => simp only [Option.bind_some]; split <;> rfl

theorem core_applyChangeSets (t : MultiTree) (css) :
    t.core.applyChangeSets css = ((t.applyChangeSets css).1.core, (t.applyChangeSets css).2) := by
  induction css generalizing t with
  | nil => rfl
  | cons c css ih =>
    simp only [MultiTree.applyChangeSets]
    have : t.core.applyChangeSet c = (t.applyChangeSet c).map core := by
      unfold applyChangeSet; cases h : indexOf t.trees c.name <;> simp [core, h]
    rw [this]
    cases t.applyChangeSet c with
    | none => rfl
    | some t1 => exact ih t1

theorem core_applyWALEntry (t : MultiTree) (e) : t.core.applyWALEntry e = (t.applyWALEntry e).map core := by
  unfold applyWALEntry
  rw [core_applyUpgrades]
  cases t.applyUpgrades e.upgrades with
  | none => rfl
  | some m =>
    simp only [Option.map_some, Option.bind_some, core_applyChangeSets]
    generalize m.applyChangeSets e.changesets = x
    obtain ⟨a, b⟩ := x
    cases b <;> rfl

theorem core_saveVersion (t : MultiTree) : t.core.saveVersion H false = t.saveVersion H false := rfl

theorem saveVersion_core {t t' : MultiTree} (h : t.saveVersion H false = some t') : t'.core = t' := by
  unfold saveVersion at h
  obtain ⟨l, hl, rfl⟩ := Option.map_eq_some_iff.1 h
  rfl

theorem updateCommitInfo_core {t : MultiTree} : t.core.updateCommitInfo H = t.updateCommitInfo H := rfl

/-- One log entry takes the committed state `p` to the committed state `c`. -/
def Next (p : MultiTree) (e : WALEntry) (c : MultiTree) : Prop :=
  ∃ m, p.applyWALEntry e = some m ∧ m.saveVersion H true = some c

theorem Next.replay {p c t : MultiTree} {e} (h : Next H p e c) (ht : t.core = p.core) :
    ∃ m t', t.applyWALEntry e = some m ∧ m.saveVersion H false = some t' ∧ t'.core = c.core ∧ t'.updateCommitInfo H = c := by
  obtain ⟨m, h1, h2⟩ := h
  have h3 := core_applyWALEntry t e
  rw [ht, core_applyWALEntry, h1] at h3
  cases h4 : t.applyWALEntry e with
  | none => simp [h4] at h3
  | some m' =>
    simp only [h4, Option.map_some, Option.some.injEq] at h3
    rw [saveVersion_true] at h2
    obtain ⟨t', h5, h6⟩ := Option.map_eq_some_iff.1 h2
    refine ⟨m', t', rfl, ?_, ?_, h6⟩
    · rw [← core_saveVersion, ← h3, core_saveVersion]; exact h5
    · rw [← h6]; rfl

theorem Next.fields {p c : MultiTree} {e} (h : Next H p e c) :
    c.version = nextVersion p.version p.initialVersion ∧ c.initialVersion = p.initialVersion := by
  obtain ⟨m, h1, h2⟩ := h
  obtain ⟨a1, a2, -⟩ := applyWALEntry_fields h1
  obtain ⟨b1, b2, -⟩ := saveVersion_fields H h2
  rw [b1, b2, a1, a2]; exact ⟨rfl, rfl⟩

theorem Good.next {p c : MultiTree} {e} (hg : p.Good) (h : Next H p e c) : c.Good := by
  obtain ⟨m, h1, h2⟩ := h
  exact (hg.applyWALEntry h1).saveVersion H h2

theorem Good.load {t : MultiTree} (hg : t.Good) : t.load = t := by
  unfold MultiTree.load
  split
  · rename_i hi
    have : (t.trees.map fun p => (p.1, p.2.setInitialVersion t.initialVersion)) = t.trees := by
      refine map_self fun p hp => ?_
      have h := hg.vers p hp
      have : p.2.version > 0 := by
        unfold nextVersion at h; split at h <;> omega
      simp [Tree.setInitialVersion, this]
    rw [this]
  · rfl

end MultiTree

/-! ### The pending log -/

theorem forName_perm_nodup {a b : List NamedChangeSet} (hp : a.Perm b) (hn : (a.map (·.name)).Nodup) (n : Name) :
    forName n a = forName n b := by
  unfold forName
  have hlen : ∀ c : List NamedChangeSet, (c.map (·.name)).Nodup → (c.filter (fun x => x.name == n)).length ≤ 1 := by
    intro c hc
    induction c with
    | nil => simp
    | cons x c ih =>
      simp only [List.map_cons, List.nodup_cons] at hc
      rw [List.filter_cons]
      split
      · rename_i hx
        have : c.filter (fun x => x.name == n) = [] := by
          rw [List.filter_eq_nil_iff]; intro y hy hyn
          have h1 : x.name = n := by simpa using hx
          have h2 : y.name = n := by simpa using hyn
          exact hc.1 (List.mem_map.2 ⟨y, hy, h2.trans h1.symm⟩)
        simp [this]
      · exact ih hc.2
  have h1 := hlen a hn
  have h2 := hp.filter (fun x => x.name == n)
  congr 1
  generalize a.filter (fun x => x.name == n) = x at h1 h2
  generalize b.filter (fun x => x.name == n) = y at h2
  rcases x with _ | ⟨x, _ | ⟨x', xs⟩⟩
  · exact (List.nil_perm.1 h2).symm
  · exact List.singleton_perm.1 h2
  · simp at h1

theorem mergePending_spec {pd : List NamedChangeSet} {c : NamedChangeSet} (hn : (pd.map (·.name)).Nodup) :
    ((mergePending pd c).map (·.name)).Nodup ∧ (∀ n, forName n (mergePending pd c) = forName n (pd ++ [c])) ∧
      ∀ n, n ∈ (mergePending pd c).map (·.name) ↔ n ∈ (pd ++ [c]).map (·.name) := by
  unfold mergePending
  cases hi : pd.findIdx? (fun p => p.name == c.name) with
  | none =>
    simp only
    have hc : c.name ∉ pd.map (·.name) := by
      intro h
      obtain ⟨x, hx, e⟩ := List.mem_map.1 h
      have := List.findIdx?_eq_none_iff.1 hi x hx
      simp [e] at this
    have hp := StableSort.sortBy_perm (fun a b => decide (a.name ≤ b.name)) (pd ++ [c])
    have hn' : ((pd ++ [c]).map (·.name)).Nodup := by
      rw [List.map_append, List.nodup_append]
      refine ⟨hn, by simp, ?_⟩
      intro a ha b hb
      simp only [List.map_cons, List.map_nil, List.mem_singleton] at hb
      subst hb; rintro rfl; exact hc ha
    exact ⟨(hp.symm.map _).nodup hn', fun n => (forName_perm_nodup hp.symm hn' n).symm, fun n => (hp.map _).mem_iff⟩
  | some i =>
    simp only
    rw [List.findIdx?_eq_some_iff_getElem] at hi
    obtain ⟨hi, h1, -⟩ := hi
    have hname : pd[i].name = c.name := by simpa using h1
    obtain ⟨a, x, b, rfl, rfl, hx⟩ : ∃ a x b, pd = a ++ x :: b ∧ a.length = i ∧ x.name = c.name :=
      ⟨pd.take i, pd[i], pd.drop (i + 1), by simp, by simp; omega, hname⟩
    rw [modify_mid]
    have hmap : (a ++ { x with pairs := x.pairs ++ c.pairs } :: b).map (·.name) = (a ++ x :: b).map (·.name) := by simp
    refine ⟨by rw [hmap]; exact hn, ?_, ?_⟩
    · intro n
      simp only [forName, List.filter_append, List.filter_cons, List.filter_nil, List.flatMap_append]
      by_cases h : c.name = n
      · subst h
        have hb : b.filter (fun y => y.name == c.name) = [] := by
          rw [List.filter_eq_nil_iff]; intro y hy hyn
          simp only [List.map_append, List.map_cons, List.nodup_append, List.nodup_cons] at hn
          have h2 : y.name = c.name := by simpa using hyn
          exact hn.2.1.1 (List.mem_map.2 ⟨y, hy, h2.trans hx.symm⟩)
        simp [hx, hb]
      · have e1 : (c.name == n) = false := by simpa using h
        have e2 : (x.name == n) = false := by rw [hx]; exact e1
        simp [e1, e2]
    · intro n
      rw [hmap, List.map_append (l₂ := [c]), List.mem_append]
      constructor
      · exact .inl
      · rintro (h | h)
        · exact h
        · simp only [List.map_cons, List.map_nil, List.mem_singleton] at h
          subst h; simp [hx]

theorem applyTo_congr {a b : List NamedChangeSet} (h : ∀ n, forName n a = forName n b) (l) : applyTo a l = applyTo b l := by
  simp [applyTo, h]

/-- Adding one change set to the pending log and to the trees. -/
theorem pending_change {b t t' : MultiTree} {pd : WALEntry} {c} (hg : b.Good) (hn : (pd.changesets.map (·.name)).Nodup)
    (h : b.applyWALEntry pd = some t) (h' : t.applyChangeSet c = some t') :
    b.applyWALEntry { pd with changesets := mergePending pd.changesets c } = some t' := by
  obtain ⟨m, h1, h2⟩ := MultiTree.applyWALEntry_some.1 h
  have hm := hg.applyUpgrades h1
  obtain ⟨h3, rfl⟩ := (MultiTree.applyChangeSets_eq hm.nodup).1 h2
  rw [MultiTree.applyChangeSet_eq (by rw [names_applyTo]; exact hm.nodup)] at h'
  split at h'
  · cases h'
    rename_i hc
    simp only [names_applyTo] at hc
    obtain ⟨a1, a2, a3⟩ := mergePending_spec (c := c) hn
    refine MultiTree.applyWALEntry_some.2 ⟨m, h1, (MultiTree.applyChangeSets_eq hm.nodup).2 ⟨?_, ?_⟩⟩
    · intro x hx
      have := (a3 x.name).1 (List.mem_map_of_mem hx)
      rw [List.map_append, List.mem_append] at this
      rcases this with h | h
      · obtain ⟨y, hy, e⟩ := List.mem_map.1 h
        rw [← e]; exact h3 y hy
      · simp only [List.map_cons, List.map_nil, List.mem_singleton] at h
        rw [h]; exact hc
    · simp only
      rw [applyTo_congr a2, applyTo_append]
  · cases h'

end MemIAVL
