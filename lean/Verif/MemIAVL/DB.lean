import Verif.MemIAVL.MultiTree
/-!
# memiavl: the database around the multi-tree

Models `/repo/helios-chain/memiavl/db.go`: pending log, commit, asynchronous log writing, background snapshot rewriting,
pruning, loading, rollback, and stopping at any point.

One `Act` is one call or one step of a background goroutine, so every interleaving (and a crash between any two file
system effects of the background rewrite) is a list of acts.  `step` gives `none` when the call returns an error or
blocks; an act that is never taken again models a goroutine that died with the process.

Simplifications: the file system is the record `Disk`; renames and log writes are atomic; a snapshot directory under its
temporary name is invisible to `Load` (`isSnapshotName` checks the length, 1052-1054; `removeTmpDirs` 265-282) and is
left out; the lock file, the logger, the export trigger and `SetInitialVersion` (289-309, modelled in `InitVersion.lean`)
are left out.  The copy made for the rewrite is a value (isolation of copies is `C05_copies_isolated`).
-/
namespace MemIAVL

/-- The database directory: complete snapshot directories in ascending order of version, the target of the `current` link,
whether a link `current-tmp` is present, and the log. -/
structure Disk where
  snaps : List (Nat × MultiTree)
  current : Nat
  currentTmp : Bool
  wal : Wal
deriving Repr, DecidableEq

/-- Where the background rewrite (`rewriteSnapshotBackground`, db.go 734-774) stands. -/
inductive Rewrite where
  /-- writing the temporary directory (671) -/
  | writing (clone : MultiTree)
  /-- directory renamed (674) -/
  | renamed (clone : MultiTree)
  /-- link `current-tmp` made (982) -/
  | linkMade (clone : MultiTree)
  /-- link renamed to `current` (986) -/
  | linked
  /-- reloaded and caught up (756-770), waiting to be received; with the version of the snapshot it was loaded from -/
  | done (tree : MultiTree) (snapVersion : Nat)
deriving Repr, DecidableEq

/-- `DB` (db.go 44-83).  `async` is `walChanSize >= 0`; `queue` are the entries sent on `walChan` and not yet written;
`snapVersion` is the version of the loaded snapshot (`metadata`, multitree.go 52, 182-184). -/
structure DB where
  mt : MultiTree
  snapVersion : Nat
  pending : WALEntry
  async : Bool
  queue : List (Nat × WALEntry)
  rewrite : Option Rewrite
  keepRecent : Nat
  disk : Disk
deriving Repr, DecidableEq

/-- Put a new snapshot directory into the ascending listing. -/
def insertSnap (v : Nat) (t : MultiTree) : List (Nat × MultiTree) → List (Nat × MultiTree)
  | [] => [(v, t)]
  | (w, u) :: rest => if v < w then (v, t) :: (w, u) :: rest else (w, u) :: insertSnap v t rest

namespace Disk
variable (H : Bytes → Bytes)

/-- Content of a snapshot directory. -/
def find (d : Disk) (v : Nat) : Option MultiTree := (d.snaps.find? (fun p => p.1 == v)).map (·.2)

/-- `initEmptyDB` (db.go 965-976) in an empty directory, with an unused log. -/
def init (g : MultiTree) : Disk := { snaps := [(g.version, g)], current := g.version, currentTmp := false, wal := {} }

/-- `seekSnapshot` (db.go 912-933) over the descending listing; `parseVersion` (897-908) rejects versions that do not fit
an `int32`. -/
def seekIn (target : Nat) : List (Nat × MultiTree) → Option Nat
  | [] => none
  | (v, _) :: rest => if v ≥ 2 ^ 31 then none else if v ≤ target then some v else seekIn target rest

/-- The snapshot `Load` starts from (db.go 171-179). -/
def pick (d : Disk) (target : Nat) : Option Nat :=
  if target > 0 then seekIn target d.snaps.reverse else some d.current

/-- The trees `Load` ends up with (db.go 171-196); `none` is an error.  `target = 0` is the latest version. -/
def loadTree (d : Disk) (target : Nat) : Option MultiTree :=
  (d.pick target).bind fun v => (d.find v).bind fun t =>
    let t := t.load
    if target = 0 ∨ target > t.version then t.catchupWAL H d.wal target else some t

/-- `updateCurrentSymlink` (db.go 980-987): fails if a link `current-tmp` exists. -/
def setCurrent (d : Disk) (v : Nat) : Option Disk :=
  if d.currentTmp then none else some { d with current := v }

/-- The rollback part of `Load` with `LoadForOverwriting` (db.go 198-233). -/
def rollback (d : Disk) (target initialVersion : Nat) : Option Disk :=
  (d.pick target).bind fun v =>
    (if v ≠ d.current then d.setCurrent v else some d).bind fun d =>
      (d.wal.truncateBack (walIndex target initialVersion)).map fun w =>
        { d with wal := w, snaps := d.snaps.filter fun p => p.1 ≤ target }

/-- `firstSnapshotVersion` (db.go 936-950) as used at 523-526: 0 when it fails. -/
def firstSnapshot (d : Disk) : Nat := (d.snaps.head?.map (·.1)).getD 0

/-- The snapshots `pruneSnapshots` removes, newest first (db.go 498-517). -/
def prunable (d : Disk) (keepRecent : Nat) : List Nat :=
  (((d.snaps.map (·.1)).filter fun v => v < d.current).reverse).drop keepRecent

/-- Removing the first `n` of them (`n` smaller than their number: the process stopped on the way). -/
def pruneDirs (d : Disk) (keepRecent n : Nat) : Disk :=
  { d with snaps := d.snaps.filter fun p => ¬ p.1 ∈ (d.prunable keepRecent).take n }

/-- Truncating the log to the earliest remaining snapshot (db.go 522-530); an out-of-range error is only logged. -/
def pruneWal (d : Disk) (initialVersion : Nat) : Disk :=
  { d with wal := (d.wal.truncateFront (walIndex (d.firstSnapshot + 1) initialVersion)).getD d.wal }

end Disk

/-- `applyChangeSet`'s update of the pending change sets (db.go 380-397). -/
def mergePending (pending : List NamedChangeSet) (cs : NamedChangeSet) : List NamedChangeSet :=
  match pending.findIdx? (fun p => p.name == cs.name) with
  | some i => pending.modify i (fun p => { p with pairs := p.pairs ++ cs.pairs })
  | none => StableSort.sortBy (fun a b => decide (a.name ≤ b.name)) (pending ++ [cs])

namespace DB

/-- `applyChangeSet` (db.go 371-400): the database afterwards and whether it returned without error. -/
def applyChangeSet (db : DB) (cs : NamedChangeSet) : DB × Bool :=
  if cs.pairs = [] then (db, true)
  else
    let db := { db with pending := { db.pending with changesets := mergePending db.pending.changesets cs } }
    match db.mt.applyChangeSet cs with
    | some t => ({ db with mt := t }, true)
    | none => (db, false)

/-- The slow path of `ApplyChangeSets` (db.go 350-355). -/
def applyEach (db : DB) : List NamedChangeSet → DB × Bool
  | [] => (db, true)
  | cs :: rest =>
    let (db, ok) := db.applyChangeSet cs
    if ok then db.applyEach rest else (db, false)

/-- `ApplyChangeSets` (db.go 331-356). -/
def applyChangeSets (db : DB) (css : List NamedChangeSet) : DB × Bool :=
  if css = [] then (db, true)
  else if db.pending.changesets = [] then
    let (t, ok) := db.mt.applyChangeSets css
    ({ db with mt := t, pending := { db.pending with changesets := css } }, ok)
  else db.applyEach css

/-- `ApplyUpgrades` (db.go 313-327). -/
def applyUpgrades (db : DB) (us : List Upgrade) : Option DB :=
  (db.mt.applyUpgrades us).map fun t =>
    { db with mt := t, pending := { db.pending with upgrades := db.pending.upgrades ++ us } }

variable (H : Bytes → Bytes)

/-- `Commit` (db.go 535-577) without the two background checks, which are acts of their own. -/
def commit (db : DB) : Option DB :=
  (db.mt.saveVersion H true).bind fun t =>
    if db.async then
      some { db with mt := t, pending := {}, queue := db.queue ++ [(walIndex t.version t.initialVersion, db.pending)] }
    else
      (db.disk.wal.write (walIndex t.version t.initialVersion) db.pending).map fun w =>
        { db with mt := t, pending := {}, disk := { db.disk with wal := w } }

/-- The log goroutine (db.go 579-613) writes the next entry; a batch is several of these. -/
def writeQueued (db : DB) : Option DB :=
  match db.queue with
  | [] => none
  | (i, e) :: rest => (db.disk.wal.write i e).map fun w => { db with queue := rest, disk := { db.disk with wal := w } }

/-- `CommittedVersion` (db.go 423-432). -/
def committedVersion (db : DB) : Nat :=
  if db.disk.wal.last = 0 then db.snapVersion else walVersion db.disk.wal.last db.mt.initialVersion

/-- The next step of the background rewrite (db.go 747-771).  `os.Rename` onto an existing (non-empty) directory and
`os.Symlink` onto an existing link fail. -/
def rewriteStep (db : DB) : Option DB :=
  match db.rewrite with
  | some (.writing t) =>
    if (db.disk.find t.version).isSome then none
    else some { db with disk := { db.disk with snaps := insertSnap t.version t db.disk.snaps }, rewrite := some (.renamed t) }
  | some (.renamed t) =>
    if db.disk.currentTmp then none
    else some { db with disk := { db.disk with currentTmp := true }, rewrite := some (.linkMade t) }
  | some (.linkMade t) =>
    some { db with disk := { db.disk with current := t.version, currentTmp := false }, rewrite := some .linked }
  | some .linked =>
    (db.disk.find db.disk.current).bind fun t =>
      (t.load.catchupWAL H db.disk.wal 0).map fun t' => { db with rewrite := some (.done t' t.version) }
  | _ => none

/-- Receiving the result of the rewrite in `Commit` (`checkBackgroundSnapshotRewrite`, db.go 435-481, and
`reloadMultiTree`, 695-703).  The busy wait (449-458) is the first condition. -/
def switch (db : DB) : Option DB :=
  match db.rewrite with
  | some (.done t sv) =>
    if db.mt.version = db.committedVersion then
      (t.catchupWAL H db.disk.wal 0).bind fun t =>
        (t.applyWALEntry db.pending).map fun t => { db with mt := t, snapVersion := sv, rewrite := none }
    else none
  | _ => none

/-- The database after `Load` (db.go 237-249). -/
def opened (db : DB) (d : Disk) (t : MultiTree) (sv : Nat) : DB :=
  { db with mt := t, snapVersion := sv, pending := {}, queue := [], rewrite := none, disk := d }

/-- The process stops (everything in memory is lost) and `Load` opens the latest version. -/
def restart (db : DB) : Option DB :=
  (db.disk.loadTree H 0).map fun t => db.opened db.disk t db.disk.current

/-- The process stops and `Load` with `LoadForOverwriting` goes back to `target > 0`. -/
def rollback (db : DB) (target : Nat) : Option DB :=
  (db.disk.loadTree H target).bind fun t =>
    (db.disk.rollback target t.initialVersion).map fun d => db.opened d t ((db.disk.pick target).getD 0)

end DB

/-- Calls and background steps. -/
inductive Act where
  /-- `ApplyUpgrades` -/
  | upgrades (us : List Upgrade)
  /-- `ApplyChangeSets` -/
  | changes (css : List NamedChangeSet)
  /-- `ApplyChangeSet` -/
  | change (cs : NamedChangeSet)
  /-- `Commit` -/
  | commit
  /-- the log goroutine writes one entry -/
  | writeQueued
  /-- `RewriteSnapshotBackground` (db.go 723-747; `rewriteIfApplicable` 706-714) -/
  | rewriteStart
  /-- the rewrite goroutine advances -/
  | rewriteStep
  /-- `Commit` receives the finished rewrite -/
  | switch
  /-- the pruning goroutine removes up to `n` directories -/
  | pruneDirs (n : Nat)
  /-- the pruning goroutine truncates the log -/
  | pruneWal
  /-- crash (or shutdown) at this point and `Load` of the latest version -/
  | restart
  /-- shutdown and rollback to `target` -/
  | rollback (target : Nat)
deriving Repr, DecidableEq

/-- One act.  `TargetVersion` is a `uint32`; 0 stands for the latest version. -/
def DB.step (H : Bytes → Bytes) (db : DB) : Act → Option DB
  | .upgrades us => db.applyUpgrades us
  | .changes css => let (db, ok) := db.applyChangeSets css; if ok then some db else none
  | .change cs => let (db, ok) := db.applyChangeSet cs; if ok then some db else none
  | .commit => db.commit H
  | .writeQueued => db.writeQueued
  | .rewriteStart => if db.rewrite.isSome then none else some { db with rewrite := some (.writing db.mt) }
  | .rewriteStep => db.rewriteStep H
  | .switch => db.switch H
  | .pruneDirs n => some { db with disk := db.disk.pruneDirs db.keepRecent n }
  | .pruneWal => some { db with disk := db.disk.pruneWal db.mt.initialVersion }
  | .restart => db.restart H
  | .rollback target => if target = 0 ∨ target ≥ 2 ^ 32 then none else db.rollback H target

/-- The database `Load` opens in a directory initialised with the trees `g` (`createDBIfNotExist`, db.go 1039-1045, or a
finished state-sync import, import.go 71-89). -/
def DB.start (g : MultiTree) (async : Bool) (keepRecent : Nat) : DB :=
  { mt := g, snapVersion := g.version, pending := {}, async, queue := [], rewrite := none, keepRecent, disk := Disk.init g }

/-- `GetLatestVersion` (db.go 1059-1077) on a directory that exists; the initial version is the one in the metadata of
the current snapshot. -/
def Disk.latestVersion (d : Disk) : Option Nat :=
  (d.find d.current).map fun t => walVersion d.wal.last t.initialVersion

end MemIAVL
