import Verif.MemIAVL.DB
/-!
# memiavl: setting the initial version of an empty database

Models `DB.SetInitialVersion` (`/repo/helios-chain/memiavl/db.go` 289-309), `MultiTree.SetInitialVersion`
(`multitree.go` 127-153) and `initEmptyDB` (`db.go` 965-976).  Negative arguments are left out.
-/
namespace MemIAVL

/-- `MultiTree.SetInitialVersion` (multitree.go 127-153); `none` is an error. -/
def MultiTree.setInitialVersion (t : MultiTree) (n : Nat) : Option MultiTree :=
  if n ≥ 2 ^ 32 - 1 then none
  else if t.version ≠ 0 then none
  else if t.trees.any (fun p => p.2.root.isSome) then none
  else some { t with
    initialVersion := n
    trees := if n > 1 then t.trees.map fun p => (p.1, p.2.setInitialVersion n) else t.trees }

/-- `initEmptyDB` (db.go 965-976): the directory `snapshot-0` is written again and becomes current. -/
def Disk.initEmpty (d : Disk) (n : Nat) : Option Disk :=
  ({ d with snaps := insertSnap 0 (MultiTree.empty n) (d.snaps.filter fun p => p.1 ≠ 0) } : Disk).setCurrent 0

/-- `DB.SetInitialVersion` (db.go 292-309); `none` is an error. -/
def DB.setInitialVersion (db : DB) (n : Nat) : Option DB :=
  if db.mt.version > 0 then none
  else (db.mt.setInitialVersion n).bind fun t => (db.disk.initEmpty n).map fun d => { db with mt := t, disk := d }

end MemIAVL
