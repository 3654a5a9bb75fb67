import Verif.MemIAVL.InitVersion
import Verif.MemIAVL.DBProps
/-!
# memiavl: initial version (C43) and latest version (C44)
-/
namespace MemIAVL
open MultiTree

variable {H : Bytes → Bytes}

/-! ### Helper lemmas: the upgrade loop on trees mapped by `f` -/

/-- Apply `f` to every tree. -/
def mapTrees (f : Tree → Tree) (l : List (Name × Tree)) : List (Name × Tree) := l.map fun p => (p.1, f p.2)

theorem indexOf_mapTrees (f) (l : List (Name × Tree)) (n) : indexOf (mapTrees f l) n = indexOf l n := by
  simp [indexOf, mapTrees, List.findIdx?_map, Function.comp_def]

theorem upgradeStep_mapTrees {f : Tree → Tree} {next next' : Nat}
    (hf : f (Tree.newWithInitialVersion next) = Tree.newWithInitialVersion next') (l : List (Name × Tree)) (u : Upgrade) :
    upgradeStep next' (mapTrees f l) u = (upgradeStep next l u).map (mapTrees f) := by
  unfold upgradeStep
  split
  · rw [indexOf_mapTrees, Option.map_map]
    congr 1
    funext i
    unfold swapDelete mapTrees
    simp only [Function.comp]
    rw [List.getLast?_map]
    cases hl : l.getLast? with
    | none => rfl
    | some x => simp [List.map_set, List.map_dropLast]
  · split
    · rw [indexOf_mapTrees, Option.map_map]
      congr 1
      funext i
      simp only [Function.comp, renameAt, mapTrees]
      apply List.ext_getElem?
      intro j
      simp only [List.getElem?_modify, List.getElem?_map]
      cases l[j]? with
      | none => simp
      | some p => by_cases h : i = j <;> simp [h]
    · simp [mapTrees, hf]

theorem upgradeFold_mapTrees {f : Tree → Tree} {next next' : Nat}
    (hf : f (Tree.newWithInitialVersion next) = Tree.newWithInitialVersion next') (us : List Upgrade) (l : List (Name × Tree)) :
    us.foldlM (upgradeStep next') (mapTrees f l) = (us.foldlM (upgradeStep next) l).map (mapTrees f) := by
  induction us generalizing l with
  | nil => rfl
  | cons u us ih =>
    simp only [List.foldlM_cons]
    rw [upgradeStep_mapTrees hf]
    cases upgradeStep next l u with
    | none => rfl
    | some r => exact ih r

theorem insertBy_mapTrees (f : Tree → Tree) (x : Name × Tree) (l : List (Name × Tree)) :
    StableSort.insertBy (fun a b => decide (a.1 ≤ b.1)) (x.1, f x.2) (mapTrees f l) =
      mapTrees f (StableSort.insertBy (fun a b => decide (a.1 ≤ b.1)) x l) := by
  induction l with
  | nil => rfl
  | cons y l ih =>
    simp only [mapTrees, List.map_cons, StableSort.insertBy] at *
    split
    · rfl
    · rw [ih]; rfl

theorem sortNames_mapTrees (f : Tree → Tree) (l : List (Name × Tree)) : sortNames (mapTrees f l) = mapTrees f (sortNames l) := by
  induction l with
  | nil => rfl
  | cons x l ih =>
    show StableSort.insertBy _ (x.1, f x.2) (sortNames (mapTrees f l)) = _
    rw [ih, insertBy_mapTrees]; rfl

theorem names_mapTrees (f l) : (mapTrees f l).map (·.1) = l.map (·.1) := by simp [mapTrees, Function.comp_def]

theorem fresh_trees {us : List Upgrade} {l r : List (Name × Tree)} {next : Nat} {x : Tree} (hx : Tree.newWithInitialVersion next = x)
    (hl : ∀ p ∈ l, p.2 = x) (h : us.foldlM (upgradeStep next) l = some r) : ∀ p ∈ r, p.2 = x := by
  induction us generalizing l with
  | nil => simp only [List.foldlM_nil] at h; cases h; exact hl
  | cons u us ih =>
    simp only [List.foldlM_cons] at h
    obtain ⟨r1, h1, h2⟩ := Option.bind_eq_some_iff.1 h
    refine ih ?_ h2
    unfold upgradeStep at h1
    split at h1
    · obtain ⟨i, -, rfl⟩ := Option.map_eq_some_iff.1 h1
      exact fun p hp => hl p (mem_swapDelete hp)
    · split at h1
      · obtain ⟨i, -, rfl⟩ := Option.map_eq_some_iff.1 h1
        intro p hp
        obtain ⟨q, hq, e⟩ := mem_renameAt hp
        rw [← e]; exact hl q hq
      · cases h1
        intro p hp
        rcases List.mem_append.1 hp with hp | hp
        · exact hl p hp
        · simp only [List.mem_singleton] at hp; rw [hp]; exact hx

/-! ### C43 -/

/-- `SetInitialVersion` before the first commit, after any store upgrades: the database is then exactly the one that would
have been created with this initial version.  (Everything proved about `Reach … (MultiTree.empty n) …` applies.) -/
theorem C43_set_initial_version {async : Bool} {keep i n : Nat} (hi : i ≤ 1) (hn : 1 ≤ n) {us : List Upgrade} {db : DB}
    (hdb : (DB.start (MultiTree.empty i) async keep).applyUpgrades us = some db) (hb : n < 2 ^ 32 - 1) :
    db.setInitialVersion n = (DB.start (MultiTree.empty n) async keep).applyUpgrades us := by
  let f : Tree → Tree := fun t => if n > 1 then t.setInitialVersion n else t
  have hnext : nextVersion 0 i = 1 := by unfold nextVersion; rw [if_neg (by omega)]
  have hf : f (Tree.newWithInitialVersion 1) = Tree.newWithInitialVersion (nextVersion 0 n) := by
    by_cases h : n > 1
    · have h1 : nextVersion 0 n = n := by unfold nextVersion; rw [if_pos ⟨rfl, h⟩]
      have h2 : ¬ n ≤ 1 := by omega
      have h3 : ¬ n < 1 := by omega
      rw [h1]
      simp only [f, if_pos h, Tree.newWithInitialVersion, Tree.setInitialVersion, Tree.empty, if_neg h2, if_neg h3]
      rfl
    · have h1 : nextVersion 0 n = 1 := by unfold nextVersion; rw [if_neg (by omega)]
      rw [h1]; simp only [f, if_neg h]
  unfold DB.applyUpgrades at hdb ⊢
  obtain ⟨t, ht, rfl⟩ := Option.map_eq_some_iff.1 hdb
  obtain ⟨e1, e2, e3, h'⟩ := applyUpgrades_some ht
  have key : ((DB.start (MultiTree.empty n) async keep).mt.applyUpgrades us) =
      some { initialVersion := n, trees := mapTrees f t.trees, version := 0, infos := [] } := by
    rcases h' with ⟨rfl, rfl⟩ | ⟨h0, l, h1, h2, h3⟩
    · rfl
    · simp only [DB.start, MultiTree.empty, hnext] at h1
      have h4 := upgradeFold_mapTrees hf us []
      rw [h1] at h4
      have h5 := applyUpgrades_of (t := MultiTree.empty n) h0 h4 (by rw [names_mapTrees]; exact h2)
      simp only [DB.start]
      rw [h5, sortNames_mapTrees, ← h3]
      rfl
  have hempty : t.trees.any (fun p => p.2.root.isSome) = false := by
    rw [List.any_eq_false]
    intro p hp
    rcases h' with ⟨rfl, rfl⟩ | ⟨h0, l, h1, h2, h3⟩
    · simp [DB.start, MultiTree.empty] at hp
    · rw [h3] at hp
      have hp' := (sortNames_perm l).mem_iff.1 hp
      simp only [DB.start, MultiTree.empty, hnext] at h1
      rw [fresh_trees (x := Tree.empty 0) rfl (by simp) h1 p hp']
      simp [Tree.empty]
  have hv : t.version = 0 := e1
  have hinf : t.infos = [] := e3
  rw [key]
  unfold DB.setInitialVersion MultiTree.setInitialVersion
  simp only
  rw [hv, if_neg (by omega), if_neg (by omega), if_neg (by omega), hempty]
  have hd : (Disk.init (MultiTree.empty i)).initEmpty n = some (Disk.init (MultiTree.empty n)) := rfl
  simp only [Bool.false_eq_true, if_false, Option.bind_some, Option.map_some]
  show Option.map _ ((Disk.init (MultiTree.empty i)).initEmpty n) = _
  rw [hd]
  simp only [Option.map_some, Option.some.injEq, DB.start]
  have htr : (if n > 1 then List.map (fun p => (p.1, p.2.setInitialVersion n)) t.trees else t.trees) = mapTrees f t.trees := by
    unfold mapTrees
    by_cases h : n > 1
    · simp [f, h]
    · simp [f, h]
  rw [htr, hinf]
  rfl

/-- The first commit after it has the chosen version, for the store and for every tree in it. -/
theorem C43_first_commit {async : Bool} {keep i n : Nat} (hi : i ≤ 1) (hn : 1 ≤ n) {us : List Upgrade} {db db1 db2 : DB}
    (hdb : (DB.start (MultiTree.empty i) async keep).applyUpgrades us = some db) (hb : n < 2 ^ 32 - 1)
    (h1 : db.setInitialVersion n = some db1) (h2 : db1.commit H = some db2) :
    db2.mt.version = n ∧ ∀ p ∈ db2.mt.trees, p.2.version = n := by
  rw [C43_set_initial_version hi hn hdb hb] at h1
  unfold DB.applyUpgrades at h1
  obtain ⟨t, ht, rfl⟩ := Option.map_eq_some_iff.1 h1
  have hg : Genesis (MultiTree.empty n) := ⟨by simp only [MultiTree.empty]; omega, .inl ⟨rfl, rfl⟩, .nil⟩
  have hgood : t.Good := hg.good.applyUpgrades ht
  obtain ⟨e1, e2, e3, -⟩ := applyUpgrades_some ht
  unfold DB.commit at h2
  obtain ⟨t', ht', h3⟩ := Option.bind_eq_some_iff.1 h2
  have hmt : db2.mt = t' := by
    split at h3
    · cases h3; rfl
    · obtain ⟨w, -, rfl⟩ := Option.map_eq_some_iff.1 h3; rfl
  obtain ⟨f1, f2, -⟩ := saveVersion_fields H ht'
  have hnv : nextVersion t.version t.initialVersion = n := by
    rw [e1, e2]
    show nextVersion 0 n = n
    unfold nextVersion
    split
    · rfl
    · rename_i h; have : n = 1 := Nat.le_antisymm (Nat.not_lt.1 fun h' => h ⟨rfl, h'⟩) hn
      rw [this]
  rw [hmt]
  simp only at f1 f2
  refine ⟨by rw [f1]; exact hnv, fun p hp => ?_⟩
  have := (hgood.saveVersion H ht').vers p hp
  rw [f1, f2, hnv] at this
  have hi' : t.initialVersion = n := e2
  rw [hi'] at this
  unfold nextVersion at this
  rw [if_neg (by omega)] at this
  omega

example : ((DB.start (MultiTree.empty 0) false 0).applyUpgrades [⟨[1], [], false⟩, ⟨[2], [], false⟩]).any (fun db =>
    ((db.setInitialVersion 7).bind (·.commit toyHash)).any (fun db => decide (db.mt.version = 7 ∧ db.mt.trees.length = 2 ∧
      db.disk.wal.last = 1))) = true := by decide +kernel

/-- Setting it a second time leaves trees made in between at the first choice: the trees of the store then disagree about
the version, and a reload gives other trees than the ones committed. -/
theorem C43_second_call_splits_versions : ∃ db, (((DB.start (MultiTree.empty 0) false 0).setInitialVersion 5).bind
      (fun d => d.applyUpgrades [⟨[1], [], false⟩])).bind (fun d => (d.setInitialVersion 9).bind (·.commit toyHash)) = some db ∧
      db.mt.version = 9 ∧ db.mt.trees.map (·.2.version) = [5] ∧
      (db.restart toyHash).map (fun d => d.mt.trees.map (·.2.version)) = some [9] := by
  apply exists_of_any; decide +kernel

/-! ### C44 -/

/-- `GetLatestVersion` is the version `Load` opens, for a database with a synchronous log and at least one commit (or an
imported start, or initial version at most 1). -/
theorem C44_latest_version {g : MultiTree} {keep s} (hg : Genesis g) (hr : Reach H g false keep s)
    (h0 : s.db.mt.version ≠ 0 ∨ g.initialVersion ≤ 1) :
    s.db.disk.latestVersion = some s.db.mt.version ∧ (s.db.disk.loadTree H 0).map (·.version) = some s.db.mt.version := by
  have hi := hr.inv hg
  have hs := hr.sync hg
  constructor
  · unfold Disk.latestVersion
    obtain ⟨m, hm⟩ := hi.disk.cur
    rw [Disk.mem_find hi.disk.sorted hm, Option.map_some, (hi.hist.mem _ _ (hi.disk.snaps _ _ hm)).2.1, hs.atLast]
    by_cases hl : s.db.disk.wal.last = 0
    · rw [hs.atLast, hl, ver_zero] at h0
      rw [hl, ver_zero]
      unfold walVersion
      rcases hg.fresh with ⟨h1, -⟩ | ⟨h1, h2, -⟩
      · rw [if_neg (by omega), h1]
      · rw [if_pos (by omega), h2]; simp
    · obtain ⟨l, hl⟩ : ∃ l, s.db.disk.wal.last = l + 1 := ⟨s.db.disk.wal.last - 1, by omega⟩
      rw [hl, walVersion_ver]
  · obtain ⟨db, h1, -, h2, -⟩ := C11_sync_crash_loses_nothing hg hr
    unfold DB.restart at h1
    obtain ⟨t, ht, rfl⟩ := Option.map_eq_some_iff.1 h1
    rw [ht, Option.map_some]; exact congrArg some h2

example : ∃ s, Reach toyHash (MultiTree.empty 5) false 0 s ∧ s.db.mt.version ≠ 0 ∧ s.db.disk.latestVersion = some 6 := by
  apply reach_of_any (l := [.upgrades [⟨[1], [], false⟩], .commit, .commit])
  decide +kernel

/-- For an empty database with a larger initial version it reports a version that was never committed. -/
theorem C44_empty_store_reports_phantom_version : (DB.start (MultiTree.empty 5) false 0).disk.latestVersion = some 4 := by decide

/-- With an asynchronous log it can lie below the version `Load` opens, when a snapshot is ahead of the log. -/
theorem C44_async_behind_snapshot : ∃ s, Reach toyHash (MultiTree.empty 0) true 0 s ∧ s.db.disk.latestVersion = some 0 ∧
    (s.db.disk.loadTree toyHash 0).map (·.version) = some 1 := by
  apply reach_of_any (l := [.upgrades [⟨[1], [], false⟩], .commit, .rewriteStart, .rewriteStep, .rewriteStep, .rewriteStep])
  decide +kernel

end MemIAVL
