import Verif.MemIAVL.DBLemmas3
/-! Helper lemmas for the database model: which versions load, and databases that write the log synchronously. -/
namespace MemIAVL
open MultiTree

variable {H : Bytes → Bytes}

theorem seekIn_complete {target : Nat} {l : List (Nat × MultiTree)} (hs : l.Pairwise (fun a b => b.1 < a.1))
    (hb : ∀ p ∈ l, p.1 < 2 ^ 31) {v m} (hm : (v, m) ∈ l) (hv : v ≤ target) :
    ∃ w, Disk.seekIn target l = some w ∧ v ≤ w ∧ w ≤ target := by
  induction l with
  | nil => simp at hm
  | cons x l ih =>
    obtain ⟨w, u⟩ := x
    rw [List.pairwise_cons] at hs
    have hw := hb (w, u) (by simp)
    simp only [Disk.seekIn]
    rw [if_neg (by simp only at hw; omega)]
    by_cases hc : w ≤ target
    · rw [if_pos hc]
      refine ⟨w, rfl, ?_, hc⟩
      rcases List.mem_cons.1 hm with h | h
      · cases h; exact Nat.le_refl _
      · exact Nat.le_of_lt (hs.1 _ h)
    · rw [if_neg hc]
      rcases List.mem_cons.1 hm with h | h
      · cases h; omega
      · exact ih hs.2 (fun p hp => hb p (by simp [hp])) h

/-- A committed version is loadable when a snapshot at or below it exists and the log reaches it. -/
theorem load_complete {g hist d} (hg : Genesis g) (hd : DiskInv H g hist d) (hh : HistInv g hist) {target q v : Nat}
    {m ms : MultiTree} (h0 : 0 < target) (h32 : target < 2 ^ 32) (hb : ∀ p ∈ d.snaps, p.1 < 2 ^ 31)
    (ht : (target, m) ∈ hist) (hq : target = ver g q) (hms : (v, ms) ∈ d.snaps) (hv : v ≤ target)
    (hl : q ≤ d.wal.last ∨ v = target) : d.loadTree H target = some m := by
  have hs : d.snaps.reverse.Pairwise (fun a b => b.1 < a.1) := List.pairwise_reverse.2 hd.sorted
  obtain ⟨w, hw, hvw, hwt⟩ := seekIn_complete hs (by simpa using hb) (by simpa using hms) hv
  have hpick : d.pick target = some w := by unfold Disk.pick; rw [if_pos h0, hw]
  obtain ⟨⟨mw, hmw⟩, -⟩ := pick_mem hd hpick
  have hmem := hd.snaps _ _ hmw
  obtain ⟨e1, e2, e3, e4, r, hr⟩ := hh.mem _ _ hmem
  have hfind := Disk.mem_find hd.sorted hmw
  have hex : ∃ t, d.loadTree H target = some t := by
    unfold Disk.loadTree
    rw [hpick, Option.bind_some, hfind, Option.bind_some, e3.load]
    simp only
    split
    · rename_i hc
      rw [e1] at hc
      have hrq : r < q := by
        have : ver g r < ver g q := by rw [← hr, ← hq]; omega
        exact (ver_lt_iff hg).1 this
      have hidx : walIndex target g.initialVersion = q := by
        have := (hh.mem _ _ ht).2.2.2.1
        obtain ⟨q', rfl⟩ : ∃ q', q = q' + 1 := ⟨q - 1, by omega⟩
        rw [hq] at this ⊢
        exact walIndex_ver q' (by omega)
      refine catchup_complete hg hd hh (hr ▸ hmem) (hd.reach _ _ hmw r hr) (.inr ?_)
      rw [hidx]
      exact ⟨hrq, by omega⟩
    · exact ⟨_, rfl⟩
  obtain ⟨t, h⟩ := hex
  rw [h]
  obtain ⟨v', q', r', k1, k2, k3, k4, -, k6⟩ := loadTree_sound hg hd hh h
  obtain ⟨k7, k8⟩ := k6 h0 h32
  rw [hpick] at k1
  cases k1
  have hver : ver g q' = target := by
    rcases k8 with k8 | ⟨k8, k9⟩
    · exact k8
    · subst k8
      rw [← k2]
      rcases hl with hl | hl
      · rw [hq] at k7 ⊢
        have h1 := (ver_le_iff hg).1 k7
        have h2 : q = q' := by omega
        rw [h2, k2]
      · omega
  rw [hver] at k4
  rw [hh.func _ _ _ k4 ht]

/-- `Load` of the latest version always succeeds. -/
theorem loadTree_latest {g hist d} (hg : Genesis g) (hd : DiskInv H g hist d) (hh : HistInv g hist) :
    ∃ t, d.loadTree H 0 = some t := by
  obtain ⟨m, hm⟩ := hd.cur
  have hmem := hd.snaps _ _ hm
  obtain ⟨e1, e2, e3, e4, r, hr⟩ := hh.mem _ _ hmem
  obtain ⟨t, ht⟩ := catchup_complete (H := H) (ev := 0) hg hd hh (hr ▸ hmem) (hd.reach _ _ hm r hr) (.inl rfl)
  refine ⟨t, ?_⟩
  unfold Disk.loadTree Disk.pick
  rw [if_neg (by omega), Option.bind_some, Disk.mem_find hd.sorted hm, Option.bind_some, e3.load]
  simpa using ht

/-! ### Synchronous log -/

structure SyncInv (g : MultiTree) (s : Sys) : Prop where
  sync : s.db.async = false
  queue : s.db.queue = []
  atLast : s.db.mt.version = ver g s.db.disk.wal.last
  top : ∀ p ∈ s.history, p.1 ≤ s.db.mt.version

theorem SyncInv.start (g : MultiTree) (keep : Nat) :
    SyncInv g { db := DB.start g false keep, history := [(g.version, g)] } := by
  refine ⟨rfl, rfl, ?_, by simp [DB.start]⟩
  simp [DB.start, Disk.init, Wal.last, ver]

/-- Acts that change neither the version, the log's end, the mode nor the history. -/
theorem SyncInv.same {g : MultiTree} {s : Sys} {db : DB} (h : SyncInv g s) (h1 : db.async = s.db.async) (h2 : db.queue = s.db.queue)
    (h3 : db.mt.version = s.db.mt.version) (h4 : db.disk.wal.last = s.db.disk.wal.last) : SyncInv g { s with db } :=
  ⟨h1 ▸ h.sync, h2 ▸ h.queue, by show db.mt.version = _; rw [h3, h4]; exact h.atLast,
   by show ∀ p ∈ s.history, p.1 ≤ db.mt.version; rw [h3]; exact h.top⟩

theorem applyUpgrades_version {t t' : MultiTree} {us} (h : t.applyUpgrades us = some t') : t'.version = t.version :=
  (applyUpgrades_some h).1

theorem applyChangeSet_version {t t' : MultiTree} {c} (h : t.applyChangeSet c = some t') : t'.version = t.version := by
  unfold MultiTree.applyChangeSet at h
  obtain ⟨i, -, rfl⟩ := Option.map_eq_some_iff.1 h
  rfl

theorem DB.applyChangeSet_same (db : DB) (c) : (db.applyChangeSet c).1.async = db.async ∧ (db.applyChangeSet c).1.queue = db.queue ∧
    (db.applyChangeSet c).1.mt.version = db.mt.version ∧ (db.applyChangeSet c).1.disk = db.disk := by
  unfold DB.applyChangeSet
  split
  · exact ⟨rfl, rfl, rfl, rfl⟩
  · simp only
    split
    · rename_i t ht
      exact ⟨rfl, rfl, applyChangeSet_version ht, rfl⟩
    · exact ⟨rfl, rfl, rfl, rfl⟩

theorem DB.applyEach_same (db : DB) (css) : (db.applyEach css).1.async = db.async ∧ (db.applyEach css).1.queue = db.queue ∧
    (db.applyEach css).1.mt.version = db.mt.version ∧ (db.applyEach css).1.disk = db.disk := by
  induction css generalizing db with
  | nil => exact ⟨rfl, rfl, rfl, rfl⟩
  | cons c css ih =>
    have h := DB.applyChangeSet_same db c
    simp only [DB.applyEach]
    split
    · obtain ⟨h1, h2, h3, h4⟩ := ih (db.applyChangeSet c).1
      exact ⟨h1.trans h.1, h2.trans h.2.1, h3.trans h.2.2.1, h4.trans h.2.2.2⟩
    · exact h

theorem DB.applyChangeSets_same (db : DB) (css) : (db.applyChangeSets css).1.async = db.async ∧
    (db.applyChangeSets css).1.queue = db.queue ∧
    (db.applyChangeSets css).1.mt.version = db.mt.version ∧ (db.applyChangeSets css).1.disk = db.disk := by
  unfold DB.applyChangeSets
  split
  · exact ⟨rfl, rfl, rfl, rfl⟩
  split
  · cases hc : db.mt.applyChangeSets css with
    | mk t ok => exact ⟨rfl, rfl, (applyChangeSets_fields hc).1, rfl⟩
  · exact DB.applyEach_same db css

theorem SyncInv.commit {g s db} (hg : Genesis g) (hi : Inv H g s) (hs : SyncInv g s) (hu : Usage H s .commit)
    (h : s.db.commit H = some db) : SyncInv g { db, history := s.history ++ [(db.mt.version, db.mt)] } := by
  unfold DB.commit at h
  obtain ⟨t, ht, h'⟩ := Option.bind_eq_some_iff.1 h
  obtain ⟨hh, he, hc, r, hr, hv, hidx⟩ := hi.commit_hist hg hu ht
  rw [hs.sync] at h'
  simp only [Bool.false_eq_true, if_false] at h'
  obtain ⟨w, hw, rfl⟩ := Option.map_eq_some_iff.1 h'
  refine ⟨rfl, hs.queue, ?_, ?_⟩
  · show t.version = ver g w.last
    rw [(Wal.write_read hw hi.disk.first).2.2.1, hidx, hv]
  · intro p hp
    show p.1 ≤ t.version
    rcases List.mem_append.1 hp with hp | hp
    · have h1 := hs.top p hp
      have h2 := ver_lt_succ hg r
      omega
    · simp only [List.mem_singleton] at hp
      subst hp; exact Nat.le_refl _

/-- In synchronous mode a version is never committed twice, and a commit that does not overflow always gets its log entry written. -/
theorem SyncInv.fresh {g s t} (hi : Inv H g s) (hg : Genesis g) (hs : SyncInv g s) (ht : s.db.mt.saveVersion H true = some t) :
    (∀ m, (t.version, m) ∉ s.history) := by
  intro m hm
  obtain ⟨r, b, h1, h2, h3, h4, h5, h6, h7, h8⟩ := hi.mt_fields
  obtain ⟨f1, f2, -⟩ := saveVersion_fields H ht
  have := hs.top _ hm
  rw [f1, h5, h6, nextVersion_ver hg] at this
  have := ver_lt_succ hg r
  simp only at *; omega

theorem SyncInv.commit_ok {g s t} (hi : Inv H g s) (hg : Genesis g) (hs : SyncInv g s) (ht : s.db.mt.saveVersion H true = some t) :
    ∃ db, s.db.commit H = some db ∧ db.mt = t := by
  obtain ⟨r, b, h1, h2, h3, h4, h5, h6, h7, h8⟩ := hi.mt_fields
  obtain ⟨f1, f2, -⟩ := saveVersion_fields H ht
  have hr : r = s.db.disk.wal.last := ver_inj hg (h5.symm.trans hs.atLast)
  have hidx : walIndex t.version t.initialVersion = s.db.disk.wal.last + 1 := by
    rw [f1, f2, h5, h6, nextVersion_ver hg, walIndex_ver r (ver_succ_lt hg h8), hr]
  unfold DB.commit
  rw [ht, Option.bind_some, hs.sync]
  simp only [Bool.false_eq_true, if_false]
  unfold Wal.write
  rw [if_pos hidx]
  exact ⟨_, rfl, rfl⟩

theorem SyncInv.step {g s s' a} (hg : Genesis g) (hi : Inv H g s) (hs : SyncInv g s) (hu : Usage H s a)
    (h : s.step H a = some s') : SyncInv g s' := by
  unfold Sys.step at h
  obtain ⟨db, h', rfl⟩ := Option.map_eq_some_iff.1 h
  cases a with
  | upgrades us =>
    simp only [DB.step, DB.applyUpgrades] at h'
    obtain ⟨t, ht, rfl⟩ := Option.map_eq_some_iff.1 h'
    exact hs.same rfl rfl (applyUpgrades_version ht) rfl
  | changes css =>
    simp only [DB.step] at h'
    split at h'
    · simp only [Option.some.injEq] at h'; subst h'
      obtain ⟨h1, h2, h3, h4⟩ := DB.applyChangeSets_same s.db css
      exact hs.same h1 h2 h3 (by rw [h4])
    · cases h'
  | change cs =>
    simp only [DB.step] at h'
    split at h'
    · simp only [Option.some.injEq] at h'; subst h'
      obtain ⟨h1, h2, h3, h4⟩ := DB.applyChangeSet_same s.db cs
      exact hs.same h1 h2 h3 (by rw [h4])
    · cases h'
  | commit => exact hs.commit hg hi hu h'
  | writeQueued => simp [DB.step, DB.writeQueued, hs.queue] at h'
  | rewriteStart =>
    simp only [DB.step] at h'
    split at h'
    · cases h'
    · simp only [Option.some.injEq] at h'; subst h'
      exact hs.same rfl rfl rfl rfl
  | rewriteStep =>
    simp only [DB.step, DB.rewriteStep] at h'
    split at h'
    · split at h'
      · cases h'
      · cases h'; exact hs.same rfl rfl rfl rfl
    · split at h'
      · cases h'
      · cases h'; exact hs.same rfl rfl rfl rfl
    · cases h'; exact hs.same rfl rfl rfl rfl
    · obtain ⟨t, -, h''⟩ := Option.bind_eq_some_iff.1 h'
      obtain ⟨t', -, rfl⟩ := Option.map_eq_some_iff.1 h''
      exact hs.same rfl rfl rfl rfl
    · cases h'
  | switch =>
    obtain ⟨t, sv, -, rfl⟩ := hi.switch_same hg h'
    exact hs.same rfl rfl rfl rfl
  | pruneDirs n =>
    simp only [DB.step, Option.some.injEq] at h'; subst h'
    exact hs.same rfl rfl rfl rfl
  | pruneWal =>
    simp only [DB.step, Option.some.injEq] at h'; subst h'
    exact hs.same rfl rfl rfl (last_pruneWal hi.disk _)
  | restart =>
    simp only [DB.step, DB.restart] at h'
    obtain ⟨t, ht, rfl⟩ := Option.map_eq_some_iff.1 h'
    obtain ⟨v, q, r, h1, h2, h3, h4, h5, -⟩ := loadTree_sound hg hi.disk hi.hist ht
    have hv := (pick_mem hi.disk h1).2.2 rfl
    have hcur := hi.curLive
    rw [← hv, h2, hs.atLast, ver_le_iff hg] at hcur
    have hq : q = s.db.disk.wal.last := by have := h5 rfl; omega
    have htv : t.version = s.db.mt.version := by rw [(hi.hist.mem _ _ h4).1, hq, hs.atLast]
    refine ⟨hs.sync, rfl, ?_, ?_⟩
    · show t.version = _; rw [htv]; exact hs.atLast
    · show ∀ p ∈ s.history, p.1 ≤ t.version; rw [htv]; exact hs.top
  | rollback target =>
    simp only [DB.step] at h'
    split at h'
    · cases h'
    · obtain ⟨h1, h2, h3, h4⟩ := hi.rollback hg (by omega) (by omega) h'
      have ha : db.async = s.db.async ∧ db.queue = [] := by
        unfold DB.rollback at h'
        obtain ⟨t, ht, h''⟩ := Option.bind_eq_some_iff.1 h'
        obtain ⟨d, hd, rfl⟩ := Option.map_eq_some_iff.1 h''
        exact ⟨rfl, rfl⟩
      refine ⟨ha.1.trans hs.sync, ha.2, ?_, ?_⟩
      · show db.mt.version = _
        rw [h2, h3]
        have := h1.disk.last_lt h1.hist
        simp only at this
        exact ver_of_walIndex hg (by omega) rfl (by omega) (by omega)
      · intro p hp
        show p.1 ≤ db.mt.version
        rw [h2]
        have := (List.mem_filter.1 hp).2
        simpa using this

theorem Reach.sync {g keep s} (hg : Genesis g) (h : Reach H g false keep s) : SyncInv g s := by
  induction h with
  | start => exact SyncInv.start g keep
  | step s s' a hr hu hs ih => exact SyncInv.step hg (hr.inv hg) ih hu hs

theorem usage_of_ok {s : Sys} {a : Act} (h : usageOK H s a = true) : Usage H s a := by
  cases a <;> simp only [usageOK, Usage] at * <;> try trivial
  · simp at h; exact ⟨h.1, .inl h.2⟩
  · simpa using h
  · intro t ht
    rw [ht] at h
    simp only [Bool.and_eq_true, decide_eq_true_eq, List.all_eq_true, Bool.or_eq_true] at h
    refine ⟨h.1, fun m hm => ?_⟩
    rcases h.2 _ hm with h | h
    · exact absurd rfl h
    · exact h
  · simpa using h

theorem Reach.runOK {g : MultiTree} {async keep} {s s' : Sys} {l : List Act} (hr : Reach H g async keep s)
    (h : s.runOK H l = some s') : Reach H g async keep s' := by
  induction l generalizing s with
  | nil => simp only [Sys.runOK, Option.some.injEq] at h; subst h; exact hr
  | cons a l ih =>
    simp only [Sys.runOK] at h
    split at h
    · rename_i hu
      obtain ⟨s1, h1, h2⟩ := Option.bind_eq_some_iff.1 h
      exact ih (.step s s1 a hr (usage_of_ok hu) h1) h2
    · cases h

/-! ### Splitting change sets over calls -/

theorem pairsFor_eq (n css) : pairsFor n css = forName n css := by
  simp only [pairsFor, forName]
  congr 1
  apply List.filter_congr
  intro x _
  by_cases h : x.name = n <;> simp [h]

theorem DB.applyChangeSet_trees {db db' : DB} {c} (hn : (db.mt.trees.map (·.1)).Nodup) (h : db.applyChangeSet c = (db', true)) :
    db'.mt = { db.mt with trees := applyTo [c] db.mt.trees } := by
  unfold DB.applyChangeSet at h
  split at h
  · rename_i h0
    cases h
    have : applyTo [c] db.mt.trees = db.mt.trees := by
      unfold applyTo
      apply map_self
      intro x _
      have : forName x.1 [c] = [] := by
        unfold forName; simp [List.filter_cons, h0]
      rw [this]; rfl
    rw [this]
  · simp only at h
    split at h
    · rename_i t ht
      cases h
      rw [MultiTree.applyChangeSet_eq hn] at ht
      split at ht
      · cases ht; rfl
      · cases ht
    · cases h

theorem DB.applyEach_trees {db db' : DB} {css} (hn : (db.mt.trees.map (·.1)).Nodup) (h : db.applyEach css = (db', true)) :
    db'.mt = { db.mt with trees := applyTo css db.mt.trees } := by
  induction css generalizing db with
  | nil =>
    simp only [DB.applyEach, Prod.mk.injEq, and_true] at h
    subst h
    have : applyTo [] db.mt.trees = db.mt.trees := map_self fun x _ => by simp [forName, Tree.applyPairs]
    rw [this]
  | cons c css ih =>
    simp only [DB.applyEach] at h
    cases hc : db.applyChangeSet c with
    | mk db1 ok =>
      rw [hc] at h
      cases ok with
      | false => simp at h
      | true =>
        simp only [if_true] at h
        have h1 := DB.applyChangeSet_trees hn hc
        rw [ih (by rw [h1]; simp only [names_applyTo]; exact hn) h, h1]
        simp only [← applyTo_append, List.singleton_append]

theorem DB.applyChangeSets_trees {db db' : DB} {css} (hn : (db.mt.trees.map (·.1)).Nodup) (h : db.applyChangeSets css = (db', true)) :
    db'.mt = { db.mt with trees := applyTo css db.mt.trees } := by
  unfold DB.applyChangeSets at h
  split at h
  · rename_i h0
    cases h
    have : applyTo css db.mt.trees = db.mt.trees := map_self fun x _ => by simp [h0, forName, Tree.applyPairs]
    rw [this]
  split at h
  · cases hc : db.mt.applyChangeSets css with
    | mk t ok =>
      rw [hc] at h
      simp only [Prod.mk.injEq] at h
      obtain ⟨rfl, rfl⟩ := h
      exact ((MultiTree.applyChangeSets_eq hn).1 hc).2
  · exact DB.applyEach_trees hn h

end MemIAVL
