import Verif.MemIAVL.DBLemmas4
import Verif.MemIAVL.SnapshotProps
/-!
# memiavl database: log indices, reload, target versions, pending changes, pruning (C10–C14)

`Reach H g async keepRecent s` (DBSpec.lean): the state `s` can come about from a fresh directory by calls, background
steps and crashes in any order; `s.history` lists what the trees were when each version was committed.
-/
namespace MemIAVL
open MultiTree

variable {H : Bytes → Bytes}

/-! ### Concrete executions used in the examples and witnesses -/

/-- The byte `n` as a store name, key or value. -/
private abbrev b1 (n : UInt8) : List UInt8 := [n]
/-- Change set writing `k := v` in store `n`. -/
private def wr (n k v : UInt8) : NamedChangeSet := ⟨b1 n, [⟨false, b1 k, b1 v⟩]⟩
/-- Upgrade adding store `n`. -/
private def add (n : UInt8) : Upgrade := ⟨b1 n, [], false⟩
/-- A complete rewrite. -/
private def rewriteActs : List Act := [.rewriteStart, .rewriteStep, .rewriteStep, .rewriteStep, .rewriteStep, .switch]

/-- Two stores, three versions, a snapshot at version 2, pruning, some uncommitted changes. -/
private def history1 : List Act :=
  [.upgrades [add 1, add 2], .changes [wr 1 1 1, wr 2 1 1], .change (wr 1 2 2), .commit, .changes [wr 2 3 3], .commit] ++
  rewriteActs ++ [.pruneDirs 5, .changes [wr 1 4 4], .commit, .pruneWal, .changes [wr 1 5 5]]

private theorem genesis0 : Genesis (MultiTree.empty 0) := ⟨by decide, .inl ⟨rfl, rfl⟩, .nil⟩
private theorem genesis5 : Genesis (MultiTree.empty 5) := ⟨by decide, .inl ⟨rfl, rfl⟩, .nil⟩

theorem exists_of_any {α : Type} {o : Option α} {P : α → Prop} [DecidablePred P] (h : o.any (fun a => decide (P a)) = true) :
    ∃ a, o = some a ∧ P a := by
  cases o with
  | none => simp at h
  | some a => exact ⟨a, rfl, by simpa using h⟩

theorem reach_of_any {g : MultiTree} {async keep} {l : List Act} {P : Sys → Prop} [DecidablePred P]
    (h : ((Sys.start g async keep).runOK H l).any (fun a => decide (P a)) = true) : ∃ s, Reach H g async keep s ∧ P s := by
  obtain ⟨s, h1, h2⟩ := exists_of_any h
  exact ⟨s, Reach.start.runOK h1, h2⟩

/-! ### C10 -/

/-- Version to log index and back. -/
theorem C10_version_of_index (v init : Nat) (hv : 0 < v) (hi : init ≤ v) (hb : v < 2 ^ 63) :
    walVersion (walIndex v init) init = v ∧ 0 < walIndex v init := by
  unfold walVersion walIndex
  split
  · have e : v + 2 ^ 64 - init + 1 = (v + 1 - init) + 2 ^ 64 := by omega
    rw [e, Nat.add_mod_right, Nat.mod_eq_of_lt (by omega)]; omega
  · omega

example : walIndex 7 5 = 3 ∧ walVersion 3 5 = 7 := by decide

/-- Log index to version and back. -/
theorem C10_index_of_version (n init : Nat) (hn : 0 < n) (hb : n + init < 2 ^ 64) :
    walIndex (walVersion n init) init = n ∧ init ≤ walVersion n init := by
  unfold walVersion walIndex
  split
  · have e : n + init - 1 + 2 ^ 64 - init + 1 = n + 2 ^ 64 := by omega
    rw [e, Nat.add_mod_right, Nat.mod_eq_of_lt (by omega)]; omega
  · omega

/-- The first version gets index 1 and consecutive versions get consecutive indices. -/
theorem C10_consecutive (v init : Nat) (hb : v < 2 ^ 63) (hi : init < 2 ^ 32) :
    (v = 0 → walIndex (nextVersion v init) init = 1) ∧
    (0 < v → init ≤ v → walIndex (nextVersion v init) init = walIndex v init + 1) := by
  constructor
  · rintro rfl
    unfold nextVersion walIndex
    by_cases h : init > 1
    · rw [if_pos h, if_pos ⟨rfl, h⟩]
      have e : init + 2 ^ 64 - init + 1 = 1 + 2 ^ 64 := by omega
      rw [e, Nat.add_mod_right]
    · rw [if_neg h, if_neg (by omega)]
  · intro h1 h2
    unfold nextVersion
    rw [if_neg (by omega)]
    unfold walIndex
    split
    · have e : v + 2 ^ 64 - init + 1 = (v + 1 - init) + 2 ^ 64 := by omega
      have e' : v + 1 + 2 ^ 64 - init + 1 = (v + 2 - init) + 2 ^ 64 := by omega
      rw [e, e', Nat.add_mod_right, Nat.add_mod_right, Nat.mod_eq_of_lt (by omega), Nat.mod_eq_of_lt (by omega)]; omega
    · omega

example : walIndex (nextVersion 0 5) 5 = 1 ∧ walIndex (nextVersion 5 5) 5 = 2 ∧ nextVersion 0 5 = 5 := by decide

/-- Every log entry of a reachable database sits at the index of the version it leads to: replaying entry `i` on the
trees of the version before gives the trees of version `walVersion i`. -/
theorem C10_entries_at_their_index {g : MultiTree} {async keep s} (hg : Genesis g) (hr : Reach H g async keep s) {i : Nat} {e}
    (he : s.db.disk.wal.read i = some e) :
    ∃ p c, s.Committed p.version p ∧ s.Committed (walVersion i g.initialVersion) c ∧
      nextVersion p.version p.initialVersion = c.version ∧
      (p.applyWALEntry e).bind (·.saveVersion H true) = some c := by
  have hi := hr.inv hg
  obtain ⟨h1, p, c, h2, h3, m, h4, h5⟩ := hi.disk.wal i e he
  obtain ⟨r, rfl⟩ : ∃ r, i = r + 1 := ⟨i - 1, by omega⟩
  have hp := (hi.hist.mem _ _ h2)
  have hc := (hi.hist.mem _ _ h3)
  refine ⟨p, c, ?_, ?_, ?_, ?_⟩
  · rw [Sys.Committed, hp.1]; exact h2
  · rw [Sys.Committed, walVersion_ver]; exact h3
  · rw [hp.1, hp.2.1, hc.1]; exact nextVersion_ver hg r
  · rw [h4]; exact h5

/-! ### C11 -/

/-- Whatever version is asked for, crash or not: if `Load` succeeds, the trees it returns are trees that were committed,
with exactly the contents, node versions and commit info of that commit. -/
theorem C11_load_returns_committed_state {g : MultiTree} {async keep s} (hg : Genesis g) (hr : Reach H g async keep s)
    {target : Nat} {t : MultiTree} (h : s.db.disk.loadTree H target = some t) : s.Committed t.version t := by
  have hi := hr.inv hg
  obtain ⟨v, q, r, -, -, -, h4, -, -⟩ := loadTree_sound hg hi.disk hi.hist h
  rw [Sys.Committed, (hi.hist.mem _ _ h4).1]; exact h4

/-- After a crash at any point the database opens again, at a committed version that is not older than the current
snapshot nor than any written log entry; no directory or log entry is needed that is not there. -/
theorem C11_restart_succeeds {g : MultiTree} {async keep s} (hg : Genesis g) (hr : Reach H g async keep s) :
    ∃ db, s.db.restart H = some db ∧ s.Committed db.mt.version db.mt ∧ db.pending = {} ∧
      s.db.disk.current ≤ db.mt.version ∧ (0 < s.db.disk.wal.last → walVersion s.db.disk.wal.last g.initialVersion ≤ db.mt.version) := by
  have hi := hr.inv hg
  obtain ⟨t, ht⟩ := loadTree_latest hg hi.disk hi.hist
  have hs := C11_load_returns_committed_state hg hr ht
  obtain ⟨v, q, r, h1, h2, h3, h4, h5, -⟩ := loadTree_sound hg hi.disk hi.hist ht
  have hv := (pick_mem hi.disk h1).2.2 rfl
  have htv := (hi.hist.mem _ _ h4).1
  refine ⟨_, by rw [DB.restart, ht]; rfl, hs, rfl, ?_, ?_⟩
  · show _ ≤ t.version
    rw [htv, ← hv, h2]; exact ver_le hg h3
  · intro h0
    show _ ≤ t.version
    obtain ⟨l, hl⟩ : ∃ l, s.db.disk.wal.last = l + 1 := ⟨s.db.disk.wal.last - 1, by omega⟩
    rw [htv, hl, walVersion_ver]
    exact ver_le hg (by have := h5 rfl; omega)

/-- With a synchronous log a crash loses no committed version: the database opens at the last committed version, with the
trees of that commit; if there were no uncommitted changes, with exactly the trees it had. -/
theorem C11_sync_crash_loses_nothing {g : MultiTree} {keep s} (hg : Genesis g) (hr : Reach H g false keep s) :
    ∃ db, s.db.restart H = some db ∧ s.Committed db.mt.version db.mt ∧ db.mt.version = s.db.mt.version ∧
      (∀ v m, s.Committed v m → v ≤ db.mt.version) ∧ (s.db.pending = {} → db.mt = s.db.mt) := by
  have hi := hr.inv hg
  have hsync := hr.sync hg
  obtain ⟨db, h1, h2, h3, -⟩ := C11_restart_succeeds hg hr
  have hs' := (SyncInv.step (a := .restart) (s' := { s with db }) hg hi hsync trivial (by simp [Sys.step, DB.step, h1, Sys.record]))
  have hmt : db.mt.version = s.db.mt.version := by
    have e1 := hs'.atLast
    have e2 := hsync.atLast
    unfold DB.restart at h1
    obtain ⟨t, -, rfl⟩ := Option.map_eq_some_iff.1 h1
    rw [e2]; exact e1
  refine ⟨db, h1, h2, hmt, ?_, ?_⟩
  · intro v m hm; rw [hmt]; exact hsync.top _ hm
  · intro hp
    obtain ⟨b, k1, k2⟩ := hi.live
    rw [hp, applyWALEntry_empty, Option.some.injEq] at k2
    subst k2
    rw [← hmt] at k1
    exact hi.hist.func _ _ _ h2 k1

/-- Every committed version from the oldest snapshot up to the end of the log can be loaded, and gives the trees of that
commit.  (Snapshot versions of 2^31 and more are refused by `parseVersion`.) -/
theorem C11_load_every_version {g : MultiTree} {async keep s} (hg : Genesis g) (hr : Reach H g async keep s) {target : Nat}
    {m : MultiTree} (ht : s.Committed target m) (h0 : 0 < target) (h32 : target < 2 ^ 32) (hsnap : s.SnapshotUpTo target)
    (hsmall : ∀ p ∈ s.db.disk.snaps, p.1 < 2 ^ 31) (hlog : target ≤ walVersion s.db.disk.wal.last g.initialVersion) :
    s.db.disk.loadTree H target = some m := by
  have hi := hr.inv hg
  obtain ⟨⟨v, ms⟩, hp, hv⟩ := hsnap
  obtain ⟨-, -, -, -, q, hq⟩ := hi.hist.mem _ _ ht
  refine load_complete hg hi.disk hi.hist h0 h32 hsmall ht hq hp hv ?_
  by_cases hl : s.db.disk.wal.last = 0
  · have hw : walVersion s.db.disk.wal.last g.initialVersion ≤ g.initialVersion - 1 := by
      rw [hl]; unfold walVersion; split <;> omega
    left
    cases q with
    | zero => omega
    | succ q => rw [ver_succ] at hq; omega
  · obtain ⟨l, hl⟩ : ∃ l, s.db.disk.wal.last = l + 1 := ⟨s.db.disk.wal.last - 1, by omega⟩
    rw [hl, walVersion_ver, hq, ver_le_iff hg] at hlog
    left; omega

/-- The same with a synchronous log: every committed version that is not older than the oldest snapshot. -/
theorem C11_sync_load_every_version {g : MultiTree} {keep s} (hg : Genesis g) (hr : Reach H g false keep s) {target : Nat}
    {m : MultiTree} (ht : s.Committed target m) (h0 : 0 < target) (hsnap : s.SnapshotUpTo target)
    (hsmall : s.db.mt.version < 2 ^ 31) : s.db.disk.loadTree H target = some m := by
  have hi := hr.inv hg
  have hsync := hr.sync hg
  have hle : target ≤ s.db.mt.version := hsync.top _ ht
  obtain ⟨⟨v, ms⟩, hp, hv⟩ := hsnap
  obtain ⟨-, -, -, -, q, hq⟩ := hi.hist.mem _ _ ht
  refine load_complete hg hi.disk hi.hist h0 (by omega) ?_ ht hq hp hv ?_
  · intro p hp
    have := hsync.top p (hi.disk.snaps p.1 p.2 hp)
    omega
  · rw [hsync.atLast, hq, ver_le_iff hg] at hle
    exact .inl hle

/-- With a synchronous log, `Commit` succeeds unless a version number overflows, and never commits a version a second time
(so the assumption of `Usage` about that holds by itself). -/
theorem C11_sync_commit {g : MultiTree} {keep s} (hg : Genesis g) (hr : Reach H g false keep s) {t : MultiTree}
    (ht : s.db.mt.saveVersion H true = some t) :
    (∃ db, s.db.commit H = some db ∧ db.mt = t) ∧ ∀ m, ¬ s.Committed t.version m :=
  ⟨(hr.sync hg).commit_ok (hr.inv hg) hg ht, (hr.sync hg).fresh (hr.inv hg) hg ht⟩

/-- Replacing the trees in memory by the freshly written snapshot changes nothing a caller can see. -/
theorem C11_switch_invisible {g : MultiTree} {async keep s} (hg : Genesis g) (hr : Reach H g async keep s) {db : DB}
    (h : s.db.switch H = some db) : db.mt = s.db.mt ∧ db.pending = s.db.pending ∧ db.disk = s.db.disk := by
  obtain ⟨t, sv, -, rfl⟩ := (hr.inv hg).switch_same hg h
  exact ⟨rfl, rfl, rfl⟩

/-- Snapshots on disk are committed states. -/
theorem C11_snapshots_are_committed {g : MultiTree} {async keep s} (hg : Genesis g) (hr : Reach H g async keep s) {v m}
    (h : (v, m) ∈ s.db.disk.snaps) : s.Committed v m := (hr.inv hg).disk.snaps v m h

-- a history with two stores, a snapshot, pruning and initial version 5: three versions 5, 6, 7; snapshots 6; log from index 3
example : ∃ s, Reach toyHash (MultiTree.empty 5) false 0 s ∧ s.db.mt.version = 7 ∧ s.db.disk.snaps.map (·.1) = [6] ∧
    s.db.disk.wal.first = 3 ∧ s.history.map (·.1) = [0, 5, 6, 7] ∧ s.db.pending ≠ {} ∧ (∃ p ∈ s.db.disk.snaps, p.1 ≤ 6) ∧
    (s.db.disk.loadTree toyHash 6).map (·.trees.map (·.2.version)) = some [6, 6] ∧ s.db.disk.loadTree toyHash 5 = none := by
  apply reach_of_any (l := history1)
  decide +kernel

/-! ### Where the code does not do this: the conditions of `Usage` are needed, and asynchronous logging has gaps -/

private def final (async : Bool) (l : List Act) : Option Sys := (Sys.start (MultiTree.empty 0) async 0).run toyHash l

/-- A snapshot started with uncommitted changes contains them: after a crash the store opens at version 1 with a key that
was never committed. -/
theorem C11_snapshot_needs_clean_state : ∃ s, final false
      ([.upgrades [add 1], .changes [wr 1 1 1], .commit, .changes [wr 1 2 2]] ++ rewriteActs ++ [.restart]) = some s ∧
      s.db.mt.version = 1 ∧ s.db.mt.trees.map (fun p => p.2.get (b1 2)) = [some (b1 2)] ∧
      ∀ p ∈ s.history, p.1 = 1 → p.2.trees.map (fun p => p.2.get (b1 2)) = [none] := by
  apply exists_of_any; decide +kernel

/-- Upgrades after change sets in one block: the log entry replays the upgrades first, so the rename of a store that was
written makes the log unreplayable and the database unloadable. -/
theorem C11_upgrades_need_to_come_first : ∃ s, final false
      [.upgrades [add 1], .commit, .changes [wr 1 1 1], .upgrades [⟨b1 2, b1 1, false⟩], .commit] = some s ∧
      s.db.mt.version = 2 ∧ s.db.restart toyHash = none := by
  apply exists_of_any; decide +kernel

/-- `ApplyChangeSets` with an unknown store returns an error, but the change stays in the pending log: if the caller goes on
and commits, the database cannot be loaded any more. -/
theorem C11_failed_change_poisons_the_log : ∃ s db, final false [.upgrades [add 1], .commit] = some s ∧
      s.db.applyChangeSets [wr 9 1 1] = (db, false) ∧ ∃ db', db.commit toyHash = some db' ∧ db'.restart toyHash = none := by
  have h : ∃ s, final false [.upgrades [add 1], .commit] = some s ∧ (s.db.applyChangeSets [wr 9 1 1]).2 = false ∧
      ((s.db.applyChangeSets [wr 9 1 1]).1.commit toyHash).any (fun d => decide (d.restart toyHash = none)) = true := by
    apply exists_of_any; decide +kernel
  obtain ⟨s, h1, h2, h3⟩ := h
  obtain ⟨db', h4, h5⟩ := exists_of_any h3
  exact ⟨s, _, h1, Prod.ext rfl h2, db', h4, h5⟩

/-- A crash between the two halves of `updateCurrentSymlink` leaves the link `current-tmp` behind, and every later snapshot
rewrite gets stuck at making it again. -/
theorem C11_crash_while_linking_blocks_rewrites : ∃ s, final false
      [.upgrades [add 1], .commit, .rewriteStart, .rewriteStep, .rewriteStep, .restart, .commit, .rewriteStart, .rewriteStep] = some s ∧
      s.db.rewriteStep toyHash = none := by
  apply exists_of_any; decide +kernel

/-- Asynchronous log: a snapshot of version 1 is linked before log entry 1 is written; after a crash the next version gets
log index 2, which the empty log refuses. -/
theorem C11_async_snapshot_overtakes_log : ∃ s, final true
      [.upgrades [add 1], .commit, .rewriteStart, .rewriteStep, .rewriteStep, .rewriteStep, .restart, .commit] = some s ∧
      s.db.queue ≠ [] ∧ s.db.writeQueued = none := by
  apply exists_of_any; decide +kernel

/-- A crash after the rename of the snapshot directory and before the link, with the log entries lost: the version is
committed again and the next rewrite fails because the directory exists. -/
theorem C11_async_stale_directory : ∃ s, final true
      [.upgrades [add 1], .commit, .rewriteStart, .rewriteStep, .restart, .upgrades [add 1], .commit, .rewriteStart] = some s ∧
      s.db.rewriteStep toyHash = none := by
  apply exists_of_any; decide +kernel

/-! ### C12 -/

/-- Full statement: if `Load` with an explicit target succeeds, the store is at exactly that version.  It is false:
beyond the latest version, when the newest snapshot is the latest version, `Load` reports success at an older one. -/
theorem C12_target_beyond_latest_returns_older : ∃ s, Reach toyHash (MultiTree.empty 0) false 0 s ∧
    s.db.mt.version = 1 ∧ (s.db.disk.loadTree toyHash 9).map (·.version) = some 1 := by
  apply reach_of_any (l := [.upgrades [add 1], .changes [wr 1 1 1], .commit] ++ rewriteActs)
  decide +kernel

/-- What holds: a target not beyond the last log entry is loaded exactly or refused. Missing: targets beyond it. -/
theorem C12_load_target_partial {g : MultiTree} {async keep s} (hg : Genesis g) (hr : Reach H g async keep s) {target : Nat}
    {t : MultiTree} (h0 : 0 < target) (h32 : target < 2 ^ 32) (hl : target ≤ walVersion s.db.disk.wal.last g.initialVersion)
    (hw : 0 < s.db.disk.wal.last) (h : s.db.disk.loadTree H target = some t) : t.version = target := by
  have hi := hr.inv hg
  obtain ⟨v, q, r, -, h2, h3, h4, -, h6⟩ := loadTree_sound hg hi.disk hi.hist h
  rw [(hi.hist.mem _ _ h4).1]
  obtain ⟨h7, h8⟩ := h6 h0 h32
  rcases h8 with h8 | ⟨h8, h9⟩
  · exact h8
  · obtain ⟨l, hl'⟩ : ∃ l, s.db.disk.wal.last = l + 1 := ⟨s.db.disk.wal.last - 1, by omega⟩
    rw [hl', walVersion_ver] at hl
    have : ver g (l + 1) ≤ ver g q := ver_le hg (by omega)
    omega

/-- The same with a synchronous log: a target not beyond the last committed version. -/
theorem C12_sync_load_target_partial {g : MultiTree} {keep s} (hg : Genesis g) (hr : Reach H g false keep s) {target : Nat}
    {t : MultiTree} (h0 : 0 < target) (h32 : target < 2 ^ 32) (hl : target ≤ s.db.mt.version)
    (h : s.db.disk.loadTree H target = some t) : t.version = target := by
  have hi := hr.inv hg
  obtain ⟨v, q, r, -, h2, h3, h4, -, h6⟩ := loadTree_sound hg hi.disk hi.hist h
  rw [(hi.hist.mem _ _ h4).1]
  obtain ⟨h7, h8⟩ := h6 h0 h32
  rcases h8 with h8 | ⟨h8, h9⟩
  · exact h8
  · rw [(hr.sync hg).atLast] at hl
    have : ver g s.db.disk.wal.last ≤ ver g q := ver_le hg (by omega)
    omega

/-- Even then the version returned is never above the target. -/
theorem C12_never_above_target {g : MultiTree} {async keep s} (hg : Genesis g) (hr : Reach H g async keep s) {target : Nat}
    {t : MultiTree} (h0 : 0 < target) (h32 : target < 2 ^ 32) (h : s.db.disk.loadTree H target = some t) : t.version ≤ target := by
  have hi := hr.inv hg
  obtain ⟨v, q, r, -, h2, h3, h4, -, h6⟩ := loadTree_sound hg hi.disk hi.hist h
  rw [(hi.hist.mem _ _ h4).1]
  exact (h6 h0 h32).1

/-- A successful rollback ends at exactly the target, with the trees committed there, and leaves a directory that loads
this version as the latest. -/
theorem C12_rollback_exact {g : MultiTree} {async keep s s'} (hg : Genesis g) (hr : Reach H g async keep s) {target : Nat}
    (h : s.step H (.rollback target) = some s') :
    s'.db.mt.version = target ∧ s.Committed target s'.db.mt ∧
      ∃ db, s'.db.restart H = some db ∧ db.mt = s'.db.mt := by
  have hr' : Reach H g async keep s' := .step s s' (.rollback target) hr trivial h
  have hi := hr.inv hg
  unfold Sys.step at h
  obtain ⟨db, h', rfl⟩ := Option.map_eq_some_iff.1 h
  simp only [DB.step] at h'
  split at h'
  · cases h'
  · obtain ⟨h1, h2, h3, h4⟩ := hi.rollback hg (by omega) (by omega) h'
    obtain ⟨b, k1, k2⟩ := h1.live
    have hp : db.pending = {} := by
      unfold DB.rollback at h'
      obtain ⟨t, ht, h''⟩ := Option.bind_eq_some_iff.1 h'
      obtain ⟨d, hd, rfl⟩ := Option.map_eq_some_iff.1 h''
      rfl
    simp only at k2
    rw [hp, applyWALEntry_empty, Option.some.injEq] at k2
    subst k2
    rw [h2] at k1
    refine ⟨h2, (List.mem_filter.1 k1).1, ?_⟩
    obtain ⟨db', m1, m2, -, -, m4⟩ := C11_restart_succeeds hg hr'
    refine ⟨db', m1, ?_⟩
    have hw : walVersion db.disk.wal.last g.initialVersion = target := by
      obtain ⟨l, hl⟩ : ∃ l, db.disk.wal.last = l + 1 := ⟨db.disk.wal.last - 1, by omega⟩
      rw [hl, walVersion_ver, ← hl]
      have := h1.disk.last_lt h1.hist
      exact (ver_of_walIndex hg (by omega) h3.symm h4 this).symm
    have m5 := m4 h4
    simp only [hw, Sys.record] at m5
    have m6 := (List.mem_filter.1 m2).2
    simp only [decide_eq_true_eq] at m6
    have m7 : db'.mt.version = target := by omega
    rw [Sys.Committed, m7] at m2
    exact h1.hist.func _ _ _ m2 k1

example : ∃ s, Reach toyHash (MultiTree.empty 5) false 1 s ∧ s.db.mt.version = 6 ∧ s.history.map (·.1) = [0, 5, 6] := by
  apply reach_of_any (l := [.upgrades [add 1], .changes [wr 1 1 1], .commit, .commit, .commit, .rollback 5, .commit, .restart])
  decide +kernel

/-- A rollback to the oldest kept snapshot is refused although `Load` of that version succeeds: the log no longer has the
entry that would become the last one. -/
theorem C12_rollback_to_oldest_snapshot_refused : ∃ s, Reach toyHash (MultiTree.empty 0) false 0 s ∧
    (s.db.disk.loadTree toyHash 1).map (·.version) = some 1 ∧ s.db.rollback toyHash 1 = none := by
  apply reach_of_any (l := [.upgrades [add 1], .changes [wr 1 1 1], .commit] ++ rewriteActs ++ [.pruneDirs 5, .commit, .pruneWal])
  decide +kernel

/-! ### C13 -/

/-- The pending log replays to the live trees: at every moment the trees in memory are the last committed ones with the
pending log entry applied, so what `Commit` logs is what it saved. -/
theorem C13_pending_log_replays {g : MultiTree} {async keep s} (hg : Genesis g) (hr : Reach H g async keep s) :
    ∃ b, s.Committed b.version b ∧ b.version = s.db.mt.version ∧ b.applyWALEntry s.db.pending = some s.db.mt := by
  obtain ⟨b, h1, h2⟩ := (hr.inv hg).live
  exact ⟨b, h1, (applyWALEntry_fields h2).1.symm, h2⟩

/-- A list of `ApplyChangeSets` calls. -/
def DB.calls (db : DB) : List (List NamedChangeSet) → DB × Bool
  | [] => (db, true)
  | css :: rest => let (db, ok) := db.applyChangeSets css; if ok then db.calls rest else (db, false)

/-- However the change sets of a block are split over calls, every store ends up with all the changes meant for it, in
order; hence two ways of splitting the same change sets give the same trees. -/
theorem C13_split {g : MultiTree} {async keep s} (hg : Genesis g) (hr : Reach H g async keep s)
    {calls : List (List NamedChangeSet)} {db : DB} (h : s.db.calls calls = (db, true)) :
    db.mt = { s.db.mt with trees := s.db.mt.trees.map fun p => (p.1, p.2.applyPairs (pairsFor p.1 calls.flatten)) } := by
  obtain ⟨r, b, -, -, -, -, -, -, hgood, -⟩ := (hr.inv hg).mt_fields
  have hn := hgood.nodup
  clear hr hgood
  generalize s.db = d at *
  simp only [pairsFor_eq]
  show db.mt = { d.mt with trees := applyTo calls.flatten d.mt.trees }
  induction calls generalizing d with
  | nil =>
    simp only [DB.calls, Prod.mk.injEq, and_true] at h
    subst h
    have : applyTo [].flatten d.mt.trees = d.mt.trees := map_self fun x _ => by simp [forName, Tree.applyPairs]
    rw [this]
  | cons css calls ih =>
    simp only [DB.calls] at h
    cases hc : d.applyChangeSets css with
    | mk db1 ok =>
      rw [hc] at h
      cases ok with
      | false => simp at h
      | true =>
        simp only [if_true] at h
        have h1 := DB.applyChangeSets_trees hn hc
        rw [ih db1 h (by rw [h1]; simp only [names_applyTo]; exact hn), h1]
        simp only [← applyTo_append, List.flatten_cons]

/-- The log entry merged from the calls replays to the same trees. -/
theorem C13_split_log {g : MultiTree} {async keep s} (hg : Genesis g) (hr : Reach H g async keep s)
    {calls : List (List NamedChangeSet)} {db : DB} (hn : ∀ css ∈ calls, (css.map (·.name)).Nodup)
    (h : s.db.calls calls = (db, true)) : ∃ b, s.Committed b.version b ∧ b.applyWALEntry db.pending = some db.mt := by
  have : Reach H g async keep { s with db } := by
    clear hg
    induction calls generalizing s with
    | nil => simp only [DB.calls, Prod.mk.injEq, and_true] at h; subst h; exact hr
    | cons css calls ih =>
      simp only [DB.calls] at h
      cases hc : s.db.applyChangeSets css with
      | mk db1 ok =>
        rw [hc] at h
        cases ok with
        | false => simp at h
        | true =>
          simp only [if_true] at h
          refine ih (s := { s with db := db1 }) ?_ (fun c hc => hn c (by simp [hc])) h
          exact .step s _ (.changes css) hr (hn css (by simp)) (by simp [Sys.step, DB.step, hc, Sys.record])
  obtain ⟨b, h1, -, h2⟩ := C13_pending_log_replays hg this
  exact ⟨b, h1, h2⟩

-- three calls with changes of two stores in mixed order
example : ∃ s, Reach toyHash (MultiTree.empty 0) false 0 s ∧
    ((s.db.calls [[wr 1 1 1], [wr 2 1 1, wr 1 1 2], [wr 1 7 7]]).2 = true ∧
     (s.db.calls [[wr 1 1 1], [wr 2 1 1, wr 1 1 2], [wr 1 7 7]]).1.pending.changesets =
       [⟨b1 1, [⟨false, b1 1, b1 1⟩, ⟨false, b1 1, b1 2⟩, ⟨false, b1 7, b1 7⟩]⟩, wr 2 1 1]) := by
  apply reach_of_any (l := [.upgrades [add 1, add 2]])
  decide +kernel

/-- Naming a store twice in the first call of a block and again in a later one reorders its changes in the log: the live
store has the value 3, the reloaded one the value 2. -/
theorem C13_duplicate_names_reorder : ∃ s, final false
      [.upgrades [add 1], .commit, .changes [wr 1 1 1, wr 1 1 2], .change (wr 1 1 3), .commit] = some s ∧
      s.db.mt.trees.map (fun p => p.2.get (b1 1)) = [some (b1 3)] ∧
      (s.db.restart toyHash).map (fun d => d.mt.trees.map (fun p => p.2.get (b1 1))) = some [some (b1 2)] := by
  apply exists_of_any; decide +kernel

/-! ### C14 -/

/-- `pruneSnapshots` keeps the current snapshot, everything newer, and the `keepRecent` newest ones before it, even if it is
interrupted after any number of removals. -/
theorem C14_recent_snapshots_kept (d : Disk) (hs : d.snaps.Pairwise (fun a b => a.1 < b.1)) (keepRecent n : Nat) {p}
    (hp : p ∈ d.snaps) (h : d.current ≤ p.1 ∨ d.newerThan p.1 < keepRecent) : p ∈ (d.pruneDirs keepRecent n).snaps := by
  rcases h with h | h
  · exact kept_pruneDirs hp h
  · rw [mem_pruneDirs]
    refine ⟨hp, fun hm => ?_⟩
    have hm := List.mem_of_mem_take hm
    have hlt := prunable_lt hm
    unfold Disk.prunable at hm
    obtain ⟨a, b, hab⟩ := List.append_of_mem hp
    have e1 : ((d.snaps.map (·.1)).filter fun v => v < d.current).reverse =
        ((b.map (·.1)).filter fun v => v < d.current).reverse ++ p.1 :: ((a.map (·.1)).filter fun v => v < d.current).reverse := by
      rw [hab]; simp [hlt]
    rw [hab, List.pairwise_append, List.pairwise_cons] at hs
    obtain ⟨-, ⟨hs1, -⟩, hs2⟩ := hs
    have e2 : d.newerThan p.1 = ((b.map (·.1)).filter fun v => v < d.current).length := by
      unfold Disk.newerThan
      rw [hab, List.filter_append, List.filter_cons]
      have : a.filter (fun q => decide (p.1 < q.1 ∧ q.1 < d.current)) = [] := by
        rw [List.filter_eq_nil_iff]
        intro q hq
        have := hs2 q hq p (by simp)
        simp; omega
      rw [this]
      simp only [List.nil_append, Nat.lt_irrefl, false_and, decide_false, Bool.false_eq_true, if_false]
      rw [List.filter_map, List.length_map]
      congr 1
      apply List.filter_congr
      intro q hq
      have := hs1 q hq
      simp [this]
    rw [e1] at hm
    rw [e2] at h
    have hm2 : p.1 ∈ ((a.map (·.1)).filter fun v => v < d.current).reverse := by
      rw [List.drop_append] at hm
      rcases List.mem_append.1 hm with hm | hm
      · have := List.mem_of_mem_drop hm
        simp only [List.mem_reverse, List.mem_filter, List.mem_map] at this
        obtain ⟨⟨q, hq, e⟩, -⟩ := this
        have := hs1 q hq
        omega
      · have h3 : keepRecent - ((b.map (·.1)).filter fun v => v < d.current).reverse.length ≠ 0 := by
          rw [List.length_reverse]; omega
        obtain ⟨k, hk⟩ := Nat.exists_eq_succ_of_ne_zero h3
        rw [hk, List.drop_succ_cons] at hm
        exact List.mem_of_mem_drop hm
    simp only [List.mem_reverse, List.mem_filter, List.mem_map] at hm2
    obtain ⟨⟨q, hq, e⟩, -⟩ := hm2
    have := hs2 q hq p (by simp)
    omega

/-- Directories in `Reach` states are listed in ascending order (the hypothesis above). -/
theorem C14_snapshots_ascending {g : MultiTree} {async keep s} (hg : Genesis g) (hr : Reach H g async keep s) :
    s.db.disk.snaps.Pairwise (fun a b => a.1 < b.1) := (hr.inv hg).disk.sorted

/-- Once the pruning has run to its end at most `keepRecent` snapshots older than the current one are left. -/
theorem C14_old_snapshots_removed (d : Disk) (hs : d.snaps.Pairwise (fun a b => a.1 < b.1)) (keepRecent n : Nat)
    (hn : d.snaps.length ≤ n) :
    ((d.pruneDirs keepRecent n).snaps.filter fun p => p.1 < d.current).length ≤ keepRecent := by
  have hlen : (d.prunable keepRecent).length ≤ n := by
    unfold Disk.prunable
    rw [List.length_drop, List.length_reverse]
    have := List.length_filter_le (fun v => decide (v < d.current)) (d.snaps.map (·.1))
    rw [List.length_map] at this
    omega
  unfold Disk.pruneDirs
  rw [List.take_of_length_le hlen]
  -- versions below `current`, newest first, split at `keepRecent`
  generalize hL : ((d.snaps.map (·.1)).filter fun v => v < d.current).reverse = L
  have hpr : d.prunable keepRecent = L.drop keepRecent := by unfold Disk.prunable; rw [hL]
  rw [hpr]
  have hnd : ((d.snaps.filter fun p => ¬ p.1 ∈ L.drop keepRecent).filter fun p => p.1 < d.current).Pairwise (fun a b => a.1 ≠ b.1) :=
    ((hs.filter _).filter _).imp fun h => by omega
  have hnd' : (((d.snaps.filter fun p => ¬ p.1 ∈ L.drop keepRecent).filter fun p => p.1 < d.current).map (·.1)).Nodup := by
    rw [List.Nodup, List.pairwise_map]; exact hnd
  have hsub : ∀ x ∈ ((d.snaps.filter fun p => ¬ p.1 ∈ L.drop keepRecent).filter fun p => p.1 < d.current).map (·.1), x ∈ L.take keepRecent := by
    intro x hx
    simp only [List.mem_map, List.mem_filter, decide_eq_true_eq] at hx
    obtain ⟨p, ⟨⟨h1, h2⟩, h3⟩, rfl⟩ := hx
    have : p.1 ∈ L := by
      rw [← hL, List.mem_reverse, List.mem_filter]
      exact ⟨List.mem_map_of_mem h1, by simpa using h3⟩
    rw [← List.take_append_drop keepRecent L, List.mem_append] at this
    exact this.resolve_right h2
  have := hnd'.length_le_of_subset hsub
  rw [List.length_map, List.length_take] at this
  exact Nat.le_trans this (Nat.min_le_left _ _)

/-- Pruning never makes a version unloadable that is not older than the oldest kept snapshot: after removing directories
(even partly) and truncating the log, every committed version from there on loads as before (synchronous log). -/
theorem C14_pruned_store_loads {g : MultiTree} {keep s s1 s2} (hg : Genesis g) (hr : Reach H g false keep s) {n : Nat}
    (h1 : s.step H (.pruneDirs n) = some s1) (h2 : s1.step H .pruneWal = some s2) {target : Nat} {m : MultiTree}
    (ht : s.Committed target m) (h0 : 0 < target) (hsmall : s.db.mt.version < 2 ^ 31) (hsnap : s2.SnapshotUpTo target) :
    s2.db.disk.loadTree H target = some m := by
  have hr2 : Reach H g false keep s2 := .step s1 s2 .pruneWal (.step s s1 (.pruneDirs n) hr trivial h1) trivial h2
  simp only [Sys.step, DB.step, Option.map_some, Option.some.injEq] at h1 h2
  subst h1
  subst h2
  exact C11_sync_load_every_version hg hr2 ht h0 hsnap hsmall

/-- Pruning never changes what `Load` of the latest version returns. -/
theorem C14_latest_unaffected {g : MultiTree} {keep s s1 s2} (hg : Genesis g) (hr : Reach H g false keep s) {n : Nat}
    (h1 : s.step H (.pruneDirs n) = some s1) (h2 : s1.step H .pruneWal = some s2) :
    s2.db.disk.loadTree H 0 = s.db.disk.loadTree H 0 := by
  have hr2 : Reach H g false keep s2 := .step s1 s2 .pruneWal (.step s s1 (.pruneDirs n) hr trivial h1) trivial h2
  simp only [Sys.step, DB.step, Option.map_some, Option.some.injEq] at h1 h2
  subst h1
  subst h2
  obtain ⟨d, a1, a2, a3, -⟩ := C11_sync_crash_loses_nothing hg hr
  obtain ⟨d', b1, b2, b3, -⟩ := C11_sync_crash_loses_nothing hg hr2
  unfold DB.restart at a1 b1
  obtain ⟨t, ht, rfl⟩ := Option.map_eq_some_iff.1 a1
  obtain ⟨t', ht', rfl⟩ := Option.map_eq_some_iff.1 b1
  rw [ht, ht']
  have e : t'.version = t.version := b3.trans a3.symm
  have a2' : (t.version, t) ∈ s.history := a2
  have b2' : (t'.version, t') ∈ s.history := b2
  rw [e] at b2'
  rw [(hr.inv hg).hist.func _ _ _ a2' b2']

-- three snapshots below the current one, one of them kept; everything from it on loads
example : ∃ s, Reach toyHash (MultiTree.empty 0) false 1 s ∧ s.db.disk.snaps.map (·.1) = [2, 3] ∧ s.db.disk.wal.first = 3 ∧
    s.db.disk.newerThan 2 = 0 ∧ (∀ v ∈ [2, 3, 4], (s.db.disk.loadTree toyHash v).map (·.version) = some v) := by
  apply reach_of_any (l := [.upgrades [add 1], .changes [wr 1 1 1], .commit] ++ rewriteActs ++ [.changes [wr 1 2 1], .commit] ++
    rewriteActs ++ [.changes [wr 1 3 1], .commit] ++ rewriteActs ++ [.changes [wr 1 4 1], .commit, .pruneDirs 10, .pruneWal])
  decide +kernel

end MemIAVL
