import Verif.MemIAVL.DB
/-!
# memiavl database: specification

What "the state the store had when version v was committed" means, and how callers are expected to use the database.
-/
namespace MemIAVL

/-- A freshly initialised directory: the empty store (`createDBIfNotExist`) or the result of a state-sync import at some
height (whose first commit will be the next height, import.go 255-256). -/
structure Genesis (g : MultiTree) : Prop where
  small : g.initialVersion < 2 ^ 32
  fresh : (g.version = 0 ∧ g.trees = []) ∨ (0 < g.version ∧ g.initialVersion = g.version + 1 ∧ ∀ p ∈ g.trees, p.2.version = g.version)
  sorted : g.trees.Pairwise (fun a b => a.1 < b.1)

/-- The database together with its history: what the trees were when each version was committed.  A rollback forgets
the versions above its target. -/
structure Sys where
  db : DB
  history : List (Nat × MultiTree)

/-- The history after an act. -/
def Sys.record (history : List (Nat × MultiTree)) (db : DB) : Act → List (Nat × MultiTree)
  | .commit => history ++ [(db.mt.version, db.mt)]
  | .rollback target => history.filter fun p => p.1 ≤ target
  | _ => history

/-- One successful act. -/
def Sys.step (H : Bytes → Bytes) (s : Sys) (a : Act) : Option Sys :=
  (s.db.step H a).map fun db => { db, history := Sys.record s.history db a }

/-- No store name ever occurs twice, not even between two upgrades of the list. -/
def NoClash (next : Nat) (trees : List (Name × Tree)) (us : List Upgrade) : Prop :=
  ∀ n r, (us.take n).foldlM (upgradeStep next) trees = some r → (r.map (·.1)).Nodup

/-- How callers use the database:
* upgrades come before the change sets of a block, and a second list of upgrades in one block creates no clash of names;
* one `ApplyChangeSets` call names each store once;
* a snapshot is taken between blocks (as `Commit` does, db.go 569-574);
* versions fit an `int64`, and a version committed again (after a crash that lost it) is committed with the same state,
  since block execution is deterministic.

`C11_…_needs_…` theorems show that each of the first three is necessary. -/
def Usage (H : Bytes → Bytes) (s : Sys) : Act → Prop
  | .upgrades us => s.db.pending.changesets = [] ∧
      (s.db.pending.upgrades = [] ∨ NoClash (nextVersion s.db.mt.version s.db.mt.initialVersion) s.db.mt.trees us)
  | .changes css => (css.map (·.name)).Nodup
  | .rewriteStart => s.db.pending = {}
  | .commit => ∀ t, s.db.mt.saveVersion H true = some t →
      t.version < 2 ^ 63 ∧ ∀ m, (t.version, m) ∈ s.history → m = t
  | _ => True

/-- Everything that can happen to a database, whatever the order of calls, background steps and crashes. -/
inductive Reach (H : Bytes → Bytes) (g : MultiTree) (async : Bool) (keepRecent : Nat) : Sys → Prop
  | start : Reach H g async keepRecent { db := DB.start g async keepRecent, history := [(g.version, g)] }
  | step (s s' : Sys) (a : Act) : Reach H g async keepRecent s → Usage H s a → s.step H a = some s' →
      Reach H g async keepRecent s'

/-- Version `v` was committed with the trees `m`. -/
def Sys.Committed (s : Sys) (v : Nat) (m : MultiTree) : Prop := (v, m) ∈ s.history

/-- Some snapshot directory has a version at most `v`. -/
def Sys.SnapshotUpTo (s : Sys) (v : Nat) : Prop := ∃ p ∈ s.db.disk.snaps, p.1 ≤ v

/-- All changes meant for store `n`, in the order of the calls. -/
def pairsFor (n : Name) (css : List NamedChangeSet) : List Pair := (css.filter fun c => c.name = n).flatMap (·.pairs)

/-- Number of snapshots newer than `v` and older than the current one. -/
def Disk.newerThan (d : Disk) (v : Nat) : Nat := (d.snaps.filter fun p => v < p.1 ∧ p.1 < d.current).length

/-- A list of acts, one after the other. -/
def Sys.run (H : Bytes → Bytes) (s : Sys) : List Act → Option Sys
  | [] => some s
  | a :: rest => (s.step H a).bind fun s => s.run H rest

/-- The database as first opened. -/
def Sys.start (g : MultiTree) (async : Bool) (keepRecent : Nat) : Sys :=
  { db := DB.start g async keepRecent, history := [(g.version, g)] }

/-- A computable test that implies `Usage` (for examples). -/
def usageOK (H : Bytes → Bytes) (s : Sys) : Act → Bool
  | .upgrades _ => s.db.pending.changesets = [] ∧ s.db.pending.upgrades = []
  | .changes css => (css.map (·.name)).Nodup
  | .rewriteStart => s.db.pending = {}
  | .commit =>
    match s.db.mt.saveVersion H true with
    | none => true
    | some t => t.version < 2 ^ 63 && s.history.all fun p => p.1 ≠ t.version || p.2 = t
  | _ => true

/-- `run` that stops at an act breaking `usageOK`. -/
def Sys.runOK (H : Bytes → Bytes) (s : Sys) : List Act → Option Sys
  | [] => some s
  | a :: rest => if usageOK H s a then (s.step H a).bind fun s => s.runOK H rest else none

end MemIAVL
