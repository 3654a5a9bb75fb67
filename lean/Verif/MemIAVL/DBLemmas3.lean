import Verif.MemIAVL.DBLemmas2
/-! Helper lemmas for the database model: the invariant of all reachable states. -/
namespace MemIAVL
open MultiTree

variable (H : Bytes → Bytes)

/-- The tree a running rewrite holds. -/
def Rewrite.tree? : Rewrite → Option MultiTree
  | .writing t => some t
  | .renamed t => some t
  | .linkMade t => some t
  | .linked => none
  | .done t _ => some t

structure Inv (g : MultiTree) (s : Sys) : Prop where
  hist : HistInv g s.history
  disk : DiskInv H g s.history s.db.disk
  queue : ∀ i e, (i, e) ∈ s.db.queue → EntryOK H g s.history i e
  live : ∃ b, (b.version, b) ∈ s.history ∧ b.applyWALEntry s.db.pending = some s.db.mt
  pend : (s.db.pending.changesets.map (·.name)).Nodup
  curLive : s.db.disk.current ≤ s.db.mt.version
  rew : ∀ x t, s.db.rewrite = some x → x.tree? = some t → (t.version, t) ∈ s.history ∧ s.db.disk.current ≤ t.version
  rewLe : ∀ x t, s.db.rewrite = some x → x.tree? = some t → t.version ≤ s.db.mt.version
  walLe : 1 ≤ s.db.disk.wal.last → ver g s.db.disk.wal.last ≤ s.db.mt.version
  queueLe : ∀ i e, (i, e) ∈ s.db.queue → ver g i ≤ s.db.mt.version
  snapLe : s.db.snapVersion ≤ s.db.disk.current
  doneLe : ∀ t sv, s.db.rewrite = some (.done t sv) → sv ≤ s.db.disk.current
  renamed : ∀ t, s.db.rewrite = some (.renamed t) ∨ s.db.rewrite = some (.linkMade t) → (t.version, t) ∈ s.db.disk.snaps

variable {H}

theorem Genesis.good {g : MultiTree} (hg : Genesis g) : g.Good := by
  refine ⟨hg.sorted, ?_⟩
  intro p hp
  rcases hg.fresh with ⟨h1, h2⟩ | ⟨h1, h2, h3⟩
  · rw [h2] at hp; simp at hp
  · rw [h3 p hp]; unfold nextVersion; rw [if_neg (by omega)]

theorem HistInv.start {g : MultiTree} (hg : Genesis g) : HistInv g [(g.version, g)] := by
  refine ⟨?_, ?_⟩
  · intro v m h
    simp only [List.mem_singleton, Prod.mk.injEq] at h
    obtain ⟨rfl, rfl⟩ := h
    have := hg.start_le
    have := hg.small
    exact ⟨rfl, rfl, hg.good, by omega, 0, (ver_zero _).symm⟩
  · intro v m m' h h'
    simp only [List.mem_singleton, Prod.mk.injEq] at h h'
    rw [h.2, h'.2]

theorem Inv.start {g : MultiTree} (hg : Genesis g) (async : Bool) (keep : Nat) :
    Inv H g { db := DB.start g async keep, history := [(g.version, g)] } := by
  refine ⟨HistInv.start hg, ⟨by simp [DB.start, Disk.init], fun _ => rfl, ?_, ?_, ?_, ?_, ⟨g, by simp [DB.start, Disk.init]⟩⟩,
    by simp [DB.start], ⟨g, by simp, applyWALEntry_empty g⟩, by simp [DB.start], Nat.le_refl _,
    by simp [DB.start], by simp [DB.start], by simp [DB.start, Disk.init, Wal.last], by simp [DB.start], Nat.le_refl _,
    by simp [DB.start], by simp [DB.start]⟩
  · intro i e h
    simp [DB.start, Disk.init, Wal.read] at h
  · intro v m h; simpa [DB.start, Disk.init] using h
  · intro v m h r hr
    simp [DB.start, Disk.init]
  · simp [DB.start, Disk.init]

theorem EntryOK.mono {g hist hist' i e} (h : EntryOK H g hist i e) (hs : ∀ x ∈ hist, x ∈ hist') : EntryOK H g hist' i e := by
  obtain ⟨h0, p, c, h1, h2, h3⟩ := h
  exact ⟨h0, p, c, hs _ h1, hs _ h2, h3⟩

theorem DiskInv.mono {g hist hist' d} (h : DiskInv H g hist d) (hs : ∀ x ∈ hist, x ∈ hist') : DiskInv H g hist' d :=
  ⟨h.first, h.empty, fun i e he => (h.wal i e he).mono hs, fun v m hm => hs _ (h.snaps v m hm), h.reach, h.sorted, h.cur⟩

/-! ### Pending changes -/

theorem Inv.mt_fields {g s} (hi : Inv H g s) : ∃ r b, (ver g r, b) ∈ s.history ∧ b.version = ver g r ∧ b.Good ∧
    b.applyWALEntry s.db.pending = some s.db.mt ∧ s.db.mt.version = ver g r ∧ s.db.mt.initialVersion = g.initialVersion ∧
    s.db.mt.Good ∧ ver g r < 2 ^ 63 := by
  obtain ⟨b, h1, h2⟩ := hi.live
  obtain ⟨-, e2, e3, e4, r, hr⟩ := hi.hist.mem _ _ h1
  obtain ⟨f1, f2, -⟩ := applyWALEntry_fields h2
  exact ⟨r, b, hr ▸ h1, hr, e3, h2, by rw [f1, hr], by rw [f2, e2], e3.applyWALEntry h2, hr ▸ e4⟩

/-- Replacing pending log and trees. -/
theorem Inv.setPending {g s} (hi : Inv H g s) {pd : WALEntry} {t : MultiTree}
    (hn : (pd.changesets.map (·.name)).Nodup)
    (h : ∀ b : MultiTree, b.Good → b.applyWALEntry s.db.pending = some s.db.mt → b.applyWALEntry pd = some t) :
    Inv H g { s with db := { s.db with mt := t, pending := pd } } := by
  obtain ⟨b, h1, h2⟩ := hi.live
  obtain ⟨-, -, e3, -⟩ := hi.hist.mem _ _ h1
  have h3 := h b e3 h2
  have hv : t.version = s.db.mt.version := by rw [(applyWALEntry_fields h2).1, (applyWALEntry_fields h3).1]
  refine ⟨hi.hist, hi.disk, hi.queue, ⟨b, h1, h3⟩, hn, ?_, hi.rew, ?_, ?_, ?_, hi.snapLe, hi.doneLe, hi.renamed⟩
  · show _ ≤ t.version; rw [hv]; exact hi.curLive
  · intro x t' hx ht'; show _ ≤ t.version; rw [hv]; exact hi.rewLe x t' hx ht'
  · intro h1; show _ ≤ t.version; rw [hv]; exact hi.walLe h1
  · intro i e h1; show _ ≤ t.version; rw [hv]; exact hi.queueLe i e h1

theorem applyUpgrades_pending {b t t' : MultiTree} {pd : WALEntry} {us} (h0 : pd.changesets = [])
    (h1 : b.applyWALEntry pd = some t) (h2 : t.applyUpgrades us = some t')
    (hc : pd.upgrades = [] ∨ NoClash (nextVersion t.version t.initialVersion) t.trees us) :
    b.applyWALEntry { pd with upgrades := pd.upgrades ++ us } = some t' := by
  obtain ⟨m, h3, h4⟩ := applyWALEntry_some.1 h1
  rw [h0] at h4
  simp only [applyChangeSets, Prod.mk.injEq, and_true] at h4
  subst h4
  refine applyWALEntry_some.2 ⟨t', applyUpgrades_append h3 h2 hc, ?_⟩
  simp only [h0, applyChangeSets]

theorem Inv.upgrades {g s us db} (hi : Inv H g s) (hu : Usage H s (.upgrades us)) (h : s.db.applyUpgrades us = some db) :
    Inv H g { s with db } := by
  unfold DB.applyUpgrades at h
  obtain ⟨t, ht, rfl⟩ := Option.map_eq_some_iff.1 h
  obtain ⟨h0, hc⟩ := hu
  refine hi.setPending (pd := { s.db.pending with upgrades := s.db.pending.upgrades ++ us }) (by simpa using hi.pend) ?_
  intro b _ hb
  exact applyUpgrades_pending h0 hb ht hc

theorem Inv.change {g s c db} (hi : Inv H g s) (h : s.db.applyChangeSet c = (db, true)) : Inv H g { s with db } := by
  unfold DB.applyChangeSet at h
  split at h
  · cases h; exact hi
  · simp only at h
    split at h
    · rename_i t ht
      cases h
      refine hi.setPending (pd := { s.db.pending with changesets := mergePending s.db.pending.changesets c })
        (mergePending_spec hi.pend).1 ?_
      intro b hb hb'
      exact pending_change hb hi.pend hb' ht
    · cases h

theorem Inv.changeEach {g s css db} (hi : Inv H g s) (h : s.db.applyEach css = (db, true)) : Inv H g { s with db } := by
  induction css generalizing s with
  | nil => simp only [DB.applyEach, Prod.mk.injEq, and_true] at h; subst h; exact hi
  | cons c css ih =>
    simp only [DB.applyEach] at h
    cases hc : s.db.applyChangeSet c with
    | mk db1 ok =>
      rw [hc] at h
      cases ok with
      | false => simp at h
      | true =>
        simp only [if_true] at h
        exact ih (s := { s with db := db1 }) (hi.change hc) h

theorem Inv.changes {g s css db} (hi : Inv H g s) (hu : Usage H s (.changes css)) (h : s.db.applyChangeSets css = (db, true)) :
    Inv H g { s with db } := by
  unfold DB.applyChangeSets at h
  split at h
  · cases h; exact hi
  split at h
  · rename_i h0
    cases hc : s.db.mt.applyChangeSets css with
    | mk t ok =>
      rw [hc] at h
      simp only [Prod.mk.injEq] at h
      obtain ⟨rfl, rfl⟩ := h
      refine hi.setPending (pd := { s.db.pending with changesets := css }) hu ?_
      intro b hb hb'
      obtain ⟨m, h3, h4⟩ := applyWALEntry_some.1 hb'
      rw [h0] at h4
      simp only [applyChangeSets, Prod.mk.injEq, and_true] at h4
      subst h4
      exact applyWALEntry_some.2 ⟨_, h3, hc⟩
  · exact hi.changeEach h

/-! ### Commit -/

theorem Wal.write_read {w w' : Wal} {i : Nat} {e} (h : w.write i e = some w') (h1 : 1 ≤ w.first) :
    w'.first = w.first ∧ w'.entries ≠ [] ∧ w'.last = i ∧ i = w.last + 1 ∧
      ∀ j e', w'.read j = some e' → w.read j = some e' ∨ (j = i ∧ e' = e) := by
  unfold Wal.write at h
  split at h
  · cases h
    rename_i hi
    refine ⟨rfl, by simp, ?_, hi, ?_⟩
    · simp [Wal.last] at *; omega
    · intro j e' h
      unfold Wal.read Wal.last at *
      simp only at h
      split at h
      · cases h
      · rw [List.getElem?_append] at h
        split at h
        · left; rw [if_neg (by omega)]; exact h
        · right
          rename_i h2 h3
          have : j - w.first - w.entries.length = 0 := by
            have := (List.getElem?_eq_some_iff.1 h).1
            simp at this; omega
          rw [this] at h
          simp at h
          exact ⟨by omega, h.symm⟩
  · cases h

theorem DiskInv.write {g hist d i e w} (hd : DiskInv H g hist d) (he : EntryOK H g hist i e) (h : d.wal.write i e = some w) :
    DiskInv H g hist { d with wal := w } := by
  obtain ⟨h1, h2, h3, h4, h5⟩ := Wal.write_read h hd.first
  refine ⟨by simp only [h1]; exact hd.first, fun h => absurd h h2, ?_, hd.snaps, ?_, hd.sorted, hd.cur⟩
  · intro j e' hj
    rcases h5 j e' hj with h | ⟨rfl, rfl⟩
    · exact hd.wal j e' h
    · exact he
  · simp only [h1]; exact hd.reach

/-- What a commit does to the history. -/
theorem Inv.commit_hist {g s t} (hg : Genesis g) (hi : Inv H g s) (hu : Usage H s .commit) (h : s.db.mt.saveVersion H true = some t) :
    HistInv g (s.history ++ [(t.version, t)]) ∧
      EntryOK H g (s.history ++ [(t.version, t)]) (walIndex t.version t.initialVersion) s.db.pending ∧
      s.db.disk.current ≤ t.version ∧ ∃ r, s.db.mt.version = ver g r ∧ t.version = ver g (r + 1) ∧
        walIndex t.version t.initialVersion = r + 1 := by
  obtain ⟨r, b, h1, h2, h3, h4, h5, h6, h7, h8⟩ := hi.mt_fields
  obtain ⟨hu1, hu2⟩ := hu t h
  obtain ⟨f1, f2, -⟩ := saveVersion_fields H h
  have hv : t.version = ver g (r + 1) := by rw [f1, h5, h6, nextVersion_ver hg]
  have hidx : walIndex t.version t.initialVersion = r + 1 := by
    rw [hv, f2, h6]; exact walIndex_ver r (ver_succ_lt hg h8)
  refine ⟨⟨?_, ?_⟩, ?_, ?_, r, h5, hv, hidx⟩
  · intro v m hm
    rcases List.mem_append.1 hm with hm | hm
    · exact hi.hist.mem v m hm
    · simp only [List.mem_singleton, Prod.mk.injEq] at hm
      obtain ⟨rfl, rfl⟩ := hm
      exact ⟨rfl, by rw [f2, h6], h7.saveVersion H h, hu1, r + 1, hv⟩
  · intro v m m' hm hm'
    rcases List.mem_append.1 hm with hm | hm <;> rcases List.mem_append.1 hm' with hm' | hm'
    · exact hi.hist.func v m m' hm hm'
    · simp only [List.mem_singleton, Prod.mk.injEq] at hm'
      obtain ⟨rfl, rfl⟩ := hm'
      exact hu2 m hm
    · simp only [List.mem_singleton, Prod.mk.injEq] at hm
      obtain ⟨rfl, rfl⟩ := hm
      exact (hu2 m' hm').symm
    · simp only [List.mem_singleton, Prod.mk.injEq] at hm hm'
      rw [hm.2, hm'.2]
  · rw [hidx]
    refine ⟨by omega, b, t, ?_, ?_, s.db.mt, h4, h⟩
    · simp only [Nat.add_sub_cancel]; exact List.mem_append_left _ h1
    · rw [← hv]; simp
  · have := hi.curLive
    have := ver_lt_succ hg r
    omega

theorem Inv.commit {g s db} (hg : Genesis g) (hi : Inv H g s) (hu : Usage H s .commit) (h : s.db.commit H = some db) :
    Inv H g { db, history := s.history ++ [(db.mt.version, db.mt)] } := by
  unfold DB.commit at h
  obtain ⟨t, ht, h'⟩ := Option.bind_eq_some_iff.1 h
  obtain ⟨hh, he, hc, r, hr, hv, hidx⟩ := hi.commit_hist hg hu ht
  have hle : s.db.mt.version ≤ t.version := by rw [hr, hv]; exact ver_le hg (by omega)
  have hmono : ∀ x ∈ s.history, x ∈ s.history ++ [(t.version, t)] := fun x hx => List.mem_append_left _ hx
  split at h'
  · cases h'
    refine ⟨hh, hi.disk.mono hmono, ?_, ⟨t, by simp, applyWALEntry_empty t⟩, by simp, hc, ?_, ?_, ?_, ?_, hi.snapLe,
      hi.doneLe, hi.renamed⟩
    · intro i e hm
      rcases List.mem_append.1 hm with hm | hm
      · exact (hi.queue i e hm).mono hmono
      · simp only [List.mem_singleton, Prod.mk.injEq] at hm
        obtain ⟨rfl, rfl⟩ := hm; exact he
    · intro x t' hx ht'
      obtain ⟨h1, h2⟩ := hi.rew x t' hx ht'
      exact ⟨hmono _ h1, h2⟩
    · intro x t' hx ht'; exact Nat.le_trans (hi.rewLe x t' hx ht') hle
    · intro h1; exact Nat.le_trans (hi.walLe h1) hle
    · intro i e hm
      rcases List.mem_append.1 hm with hm | hm
      · exact Nat.le_trans (hi.queueLe i e hm) hle
      · simp only [List.mem_singleton, Prod.mk.injEq] at hm
        obtain ⟨rfl, rfl⟩ := hm
        rw [hidx, hv]; exact Nat.le_refl _
  · obtain ⟨w, hw, rfl⟩ := Option.map_eq_some_iff.1 h'
    refine ⟨hh, (hi.disk.mono hmono).write he hw, ?_, ⟨t, by simp, applyWALEntry_empty t⟩, by simp, hc, ?_, ?_, ?_, ?_,
      hi.snapLe, hi.doneLe, hi.renamed⟩
    · exact fun i e hm => (hi.queue i e hm).mono hmono
    · intro x t' hx ht'
      obtain ⟨h1, h2⟩ := hi.rew x t' hx ht'
      exact ⟨hmono _ h1, h2⟩
    · intro x t' hx ht'; exact Nat.le_trans (hi.rewLe x t' hx ht') hle
    · intro _
      rw [(Wal.write_read hw hi.disk.first).2.2.1, hidx, ← hv]
      exact Nat.le_refl _
    · intro i e hm; exact Nat.le_trans (hi.queueLe i e hm) hle

theorem Inv.writeQueued {g s db} (hi : Inv H g s) (h : s.db.writeQueued = some db) : Inv H g { s with db } := by
  unfold DB.writeQueued at h
  split at h
  · cases h
  · rename_i i e rest hq
    obtain ⟨w, hw, rfl⟩ := Option.map_eq_some_iff.1 h
    refine ⟨hi.hist, hi.disk.write (hi.queue i e (by rw [hq]; simp)) hw, ?_, hi.live, hi.pend, hi.curLive, hi.rew, hi.rewLe,
      ?_, ?_, hi.snapLe, hi.doneLe, hi.renamed⟩
    · intro j e' hm
      exact hi.queue j e' (by rw [hq]; exact List.mem_cons_of_mem _ hm)
    · intro _
      rw [(Wal.write_read hw hi.disk.first).2.2.1]
      exact hi.queueLe i e (by rw [hq]; simp)
    · intro j e' hm
      exact hi.queueLe j e' (by rw [hq]; exact List.mem_cons_of_mem _ hm)

/-! ### Rewriting -/

theorem mem_insertSnap {v t l} (p) : p ∈ insertSnap v t l ↔ p = (v, t) ∨ p ∈ l := by
  induction l with
  | nil => simp [insertSnap]
  | cons x l ih =>
    obtain ⟨w, u⟩ := x
    simp only [insertSnap]
    split
    · simp
    · simp only [List.mem_cons, ih]
      constructor
      · rintro (h | h | h)
        · exact .inr (.inl h)
        · exact .inl h
        · exact .inr (.inr h)
      · rintro (h | h | h)
        · exact .inr (.inl h)
        · exact .inl h
        · exact .inr (.inr h)

theorem sorted_insertSnap {v t l} (hl : l.Pairwise (fun a b : Nat × MultiTree => a.1 < b.1)) (hn : ∀ m, (v, m) ∉ l) :
    (insertSnap v t l).Pairwise (fun a b => a.1 < b.1) := by
  induction l with
  | nil => simp [insertSnap]
  | cons x l ih =>
    obtain ⟨w, u⟩ := x
    rw [List.pairwise_cons] at hl
    simp only [insertSnap]
    split
    · rename_i h
      rw [List.pairwise_cons, List.pairwise_cons]
      refine ⟨?_, hl⟩
      intro p hp
      rcases List.mem_cons.1 hp with rfl | hp
      · exact h
      · have := hl.1 p hp; simp only at *; omega
    · rename_i h
      rw [List.pairwise_cons]
      refine ⟨?_, ih hl.2 fun m hm => hn m (by simp [hm])⟩
      intro p hp
      rcases (mem_insertSnap p).1 hp with rfl | hp
      · have : w ≠ v := by rintro rfl; exact hn u (by simp)
        simp only at *; omega
      · exact hl.1 p hp

theorem Inv.rewriteStart {g s} (hi : Inv H g s) (hu : Usage H s .rewriteStart) (_h : s.db.rewrite = none) :
    Inv H g { s with db := { s.db with rewrite := some (.writing s.db.mt) } } := by
  refine ⟨hi.hist, hi.disk, hi.queue, hi.live, hi.pend, hi.curLive, ?_, ?_, hi.walLe, hi.queueLe, hi.snapLe, by simp, ?_⟩
  · intro x t hx ht
    simp only [Option.some.injEq] at hx
    subst hx
    simp only [Rewrite.tree?, Option.some.injEq] at ht
    subst ht
    obtain ⟨b, h1, h2⟩ := hi.live
    have hp : s.db.pending = {} := hu
    rw [hp, applyWALEntry_empty, Option.some.injEq] at h2
    exact ⟨h2 ▸ h1, hi.curLive⟩
  · intro x t hx ht
    simp only [Option.some.injEq] at hx
    subst hx
    simp only [Rewrite.tree?, Option.some.injEq] at ht
    subst ht
    exact Nat.le_refl _
  · intro t ht; simp at ht

theorem Inv.rewriteStep {g s db} (hg : Genesis g) (hi : Inv H g s) (h : s.db.rewriteStep H = some db) : Inv H g { s with db } := by
  unfold DB.rewriteStep at h
  split at h
  · rename_i t hr
    obtain ⟨ht, hc⟩ := hi.rew _ t hr rfl
    split at h
    · cases h
    cases h
    rename_i hf
    have hn : ∀ m, (t.version, m) ∉ s.db.disk.snaps := by
      intro m hm; exact hf (by rw [Disk.mem_find hi.disk.sorted hm]; rfl)
    refine ⟨hi.hist, ⟨hi.disk.first, hi.disk.empty, hi.disk.wal, ?_, ?_, sorted_insertSnap hi.disk.sorted hn, ?_⟩, hi.queue,
      hi.live, hi.pend, hi.curLive, ?_, ?_, hi.walLe, hi.queueLe, hi.snapLe, by simp, ?_⟩
    · intro v m hm
      rcases (mem_insertSnap _).1 hm with h | h
      · cases h; exact ht
      · exact hi.disk.snaps v m h
    · intro v m hm r hr
      rcases (mem_insertSnap _).1 hm with h | h
      · cases h
        obtain ⟨m, hm⟩ := hi.disk.cur
        obtain ⟨-, -, -, -, q, hq⟩ := hi.hist.mem _ _ (hi.disk.snaps _ _ hm)
        have h1 := hi.disk.reach _ _ hm q hq
        rw [hq, hr, ver_le_iff hg] at hc
        show s.db.disk.wal.first ≤ r + 1
        omega
      · exact hi.disk.reach v m h r hr
    · obtain ⟨m, hm⟩ := hi.disk.cur
      exact ⟨m, (mem_insertSnap _).2 (.inr hm)⟩
    · intro x t' hx ht'
      simp only [Option.some.injEq] at hx
      subst hx
      simp only [Rewrite.tree?, Option.some.injEq] at ht'
      subst ht'; exact ⟨ht, hc⟩
    · intro x t' hx ht'
      simp only [Option.some.injEq] at hx
      subst hx
      simp only [Rewrite.tree?, Option.some.injEq] at ht'
      subst ht'; exact hi.rewLe _ t hr rfl
    · intro t' ht'
      simp only [Option.some.injEq, Rewrite.renamed.injEq, reduceCtorEq, or_false] at ht'
      subst ht'; exact (mem_insertSnap _).2 (.inl rfl)
  · rename_i t hr
    obtain ⟨ht, hc⟩ := hi.rew _ t hr rfl
    split at h
    · cases h
    cases h
    refine ⟨hi.hist, ⟨hi.disk.first, hi.disk.empty, hi.disk.wal, hi.disk.snaps, hi.disk.reach, hi.disk.sorted, hi.disk.cur⟩,
      hi.queue, hi.live, hi.pend, hi.curLive, ?_, ?_, hi.walLe, hi.queueLe, hi.snapLe, by simp, ?_⟩
    · intro x t' hx ht'
      simp only [Option.some.injEq] at hx
      subst hx
      simp only [Rewrite.tree?, Option.some.injEq] at ht'
      subst ht'; exact ⟨ht, hc⟩
    · intro x t' hx ht'
      simp only [Option.some.injEq] at hx
      subst hx
      simp only [Rewrite.tree?, Option.some.injEq] at ht'
      subst ht'; exact hi.rewLe _ t hr rfl
    · intro t' ht'
      simp only [Option.some.injEq, Rewrite.linkMade.injEq, reduceCtorEq, false_or] at ht'
      subst ht'; exact hi.renamed t (.inl hr)
  · rename_i t hr
    obtain ⟨ht, hc⟩ := hi.rew _ t hr rfl
    have hs := hi.renamed t (.inr hr)
    cases h
    refine ⟨hi.hist, ⟨hi.disk.first, hi.disk.empty, hi.disk.wal, hi.disk.snaps, hi.disk.reach, hi.disk.sorted, ⟨t, hs⟩⟩,
      hi.queue, hi.live, hi.pend, hi.rewLe _ t hr rfl, ?_, ?_, hi.walLe, hi.queueLe, Nat.le_trans hi.snapLe hc, by simp, ?_⟩
    · intro x t' hx ht'
      simp only [Option.some.injEq] at hx
      subst hx
      simp [Rewrite.tree?] at ht'
    · intro x t' hx ht'
      simp only [Option.some.injEq] at hx
      subst hx
      simp [Rewrite.tree?] at ht'
    · intro t' ht'; simp at ht'
  · rename_i hr
    obtain ⟨t, ht, h'⟩ := Option.bind_eq_some_iff.1 h
    obtain ⟨t', h1, rfl⟩ := Option.map_eq_some_iff.1 h'
    have hm := hi.disk.snaps _ _ (Disk.find_mem ht)
    obtain ⟨e1, -, e3, -, r, hr⟩ := hi.hist.mem _ _ hm
    rw [e3.load] at h1
    obtain ⟨q, h2, h3, h4, h5, -⟩ := catchup_sound hg hi.disk hi.hist (hr ▸ hm) h1
    refine ⟨hi.hist, hi.disk, hi.queue, hi.live, hi.pend, hi.curLive, ?_, ?_, hi.walLe, hi.queueLe, hi.snapLe, ?_, ?_⟩
    · intro x t1 hx ht1
      simp only [Option.some.injEq] at hx
      subst hx
      simp only [Rewrite.tree?, Option.some.injEq] at ht1
      subst ht1
      have hv := (hi.hist.mem _ _ h2).1
      refine ⟨by rw [hv]; exact h2, ?_⟩
      rw [hr, hv]; exact ver_le hg h3
    · intro x t1 hx ht1
      simp only [Option.some.injEq] at hx
      subst hx
      simp only [Rewrite.tree?, Option.some.injEq] at ht1
      subst ht1
      rw [(hi.hist.mem _ _ h2).1]
      by_cases hl : s.db.disk.wal.last ≤ r
      · rw [h4 hl, ← hr]; exact hi.curLive
      · rw [h5 rfl (by omega)]; exact hi.walLe (by omega)
    · intro t1 sv hx
      simp only [Option.some.injEq, Rewrite.done.injEq] at hx
      obtain ⟨-, rfl⟩ := hx
      rw [e1]; exact Nat.le_refl _
    · intro t' ht'; simp at ht'
  · cases h

theorem walVersion_ver {g : MultiTree} (r : Nat) : walVersion (r + 1) g.initialVersion = ver g (r + 1) := by
  rw [ver_succ]; unfold walVersion; split <;> omega

/-- Switching to the rewritten snapshot leaves the trees as they are. -/
theorem Inv.switch_same {g s db} (hg : Genesis g) (hi : Inv H g s) (h : s.db.switch H = some db) :
    ∃ t sv, s.db.rewrite = some (.done t sv) ∧ db = { s.db with snapVersion := sv, rewrite := none } := by
  unfold DB.switch at h
  split at h
  · rename_i t sv hr
    split at h
    · rename_i hv
      obtain ⟨t1, h1, h'⟩ := Option.bind_eq_some_iff.1 h
      obtain ⟨t2, h2, rfl⟩ := Option.map_eq_some_iff.1 h'
      obtain ⟨ht, hc⟩ := hi.rew _ t hr rfl
      have hle := hi.rewLe _ t hr rfl
      obtain ⟨-, -, e3, -, r, hr'⟩ := hi.hist.mem _ _ ht
      obtain ⟨q, k1, k2, k3, k4, -⟩ := catchup_sound hg hi.disk hi.hist (hr' ▸ ht) h1
      obtain ⟨rm, b, m1, m2, m3, m4, m5, m6, m7, m8⟩ := hi.mt_fields
      have hq : q = rm := by
        rw [m5] at hv
        unfold DB.committedVersion at hv
        rw [hr', m5, ver_le_iff hg] at hle
        split at hv
        · rename_i h0
          rw [k3 (by omega)]
          have := hi.snapLe
          have h3 : ver g rm ≤ ver g r := by rw [hv, ← hr']; omega
          rw [ver_le_iff hg] at h3; omega
        · rename_i h0
          obtain ⟨l, hl⟩ : ∃ l, s.db.disk.wal.last = l + 1 := ⟨s.db.disk.wal.last - 1, by omega⟩
          rw [hl, m6, walVersion_ver] at hv
          have := ver_inj hg hv
          rw [k4 rfl (by omega)]; omega
      subst hq
      have : t1 = b := hi.hist.func _ _ _ k1 m1
      subst this
      rw [m4, Option.some.injEq] at h2
      subst h2
      exact ⟨t, sv, hr, rfl⟩
    · cases h
  · cases h

theorem Inv.switch {g s db} (hg : Genesis g) (hi : Inv H g s) (h : s.db.switch H = some db) : Inv H g { s with db } := by
  obtain ⟨t, sv, hr, rfl⟩ := hi.switch_same hg h
  exact ⟨hi.hist, hi.disk, hi.queue, hi.live, hi.pend, hi.curLive, by simp, by simp, hi.walLe, hi.queueLe,
    hi.doneLe t sv hr, by simp, by simp⟩

/-! ### Pruning -/

theorem prunable_lt {d : Disk} {k v : Nat} (h : v ∈ d.prunable k) : v < d.current := by
  unfold Disk.prunable at h
  have h1 := List.mem_of_mem_drop h
  simp at h1; omega

theorem mem_pruneDirs {d : Disk} {k n : Nat} {p} : p ∈ (d.pruneDirs k n).snaps ↔ p ∈ d.snaps ∧ p.1 ∉ (d.prunable k).take n := by
  simp [Disk.pruneDirs]

theorem kept_pruneDirs {d : Disk} {k n : Nat} {p} (h : p ∈ d.snaps) (hv : d.current ≤ p.1) : p ∈ (d.pruneDirs k n).snaps := by
  rw [mem_pruneDirs]
  refine ⟨h, fun h' => ?_⟩
  have := prunable_lt (List.mem_of_mem_take h'); omega

theorem Inv.pruneDirs {g s} (hi : Inv H g s) (k n : Nat) :
    Inv H g { s with db := { s.db with disk := s.db.disk.pruneDirs k n } } := by
  refine ⟨hi.hist, ⟨hi.disk.first, hi.disk.empty, hi.disk.wal, ?_, ?_, ?_, ?_⟩, hi.queue, hi.live, hi.pend, hi.curLive, hi.rew,
    hi.rewLe, hi.walLe, hi.queueLe, hi.snapLe, hi.doneLe, ?_⟩
  · intro v m hm; exact hi.disk.snaps v m (mem_pruneDirs.1 hm).1
  · intro v m hm; exact hi.disk.reach v m (mem_pruneDirs.1 hm).1
  · exact hi.disk.sorted.filter _
  · obtain ⟨m, hm⟩ := hi.disk.cur
    exact ⟨m, kept_pruneDirs hm (Nat.le_refl _)⟩
  · intro t ht
    refine kept_pruneDirs (hi.renamed t ht) ?_
    rcases ht with h | h
    · exact (hi.rew _ t h rfl).2
    · exact (hi.rew _ t h rfl).2

theorem Wal.truncateFront_read {w w' : Wal} {i : Nat} (h : w.truncateFront i = some w') (h1 : 1 ≤ w.first) :
    w.first ≤ i ∧ i ≤ w.last ∧ w'.first = i ∧ w'.last = w.last ∧ w'.entries ≠ [] ∧
      ∀ j, i ≤ j → w'.read j = w.read j := by
  unfold Wal.truncateFront at h
  split at h
  · rename_i hc
    cases h
    refine ⟨hc.1, hc.2, rfl, ?_, ?_, ?_⟩
    · unfold Wal.last at *; simp; omega
    · unfold Wal.last at hc
      intro h0
      have := congrArg List.length h0
      simp at this; omega
    · intro j hj
      unfold Wal.read
      simp only
      rw [if_neg (by omega), if_neg (by omega), List.getElem?_drop]
      congr 1; omega
  · cases h

/-- The earliest snapshot, and the log index of the commit after it. -/
theorem firstSnapshot_mem {g hist d} (hd : DiskInv H g hist d) : ∃ m, (d.firstSnapshot, m) ∈ d.snaps ∧
    ∀ p ∈ d.snaps, d.firstSnapshot ≤ p.1 := by
  obtain ⟨m, hm⟩ := hd.cur
  have hs := hd.sorted
  unfold Disk.firstSnapshot
  cases hl : d.snaps with
  | nil => rw [hl] at hm; simp at hm
  | cons x l =>
    rw [hl] at hs
    rw [List.pairwise_cons] at hs
    refine ⟨x.2, by simp, ?_⟩
    intro p hp
    simp only [List.head?_cons, Option.map_some, Option.getD_some]
    rcases List.mem_cons.1 hp with rfl | hp
    · exact Nat.le_refl _
    · exact Nat.le_of_lt (hs.1 p hp)

theorem firstIndex_prune {g : MultiTree} (hg : Genesis g) {r i l : Nat} (hv : ver g r < 2 ^ 63)
    (h : walIndex (ver g r + 1) g.initialVersion = i) (h1 : 1 ≤ i) (h2 : i ≤ l) (hl : l < 2 ^ 63) : i = r + 1 := by
  have := hg.small
  by_cases hc : ver g r + 1 = ver g (r + 1)
  · rw [hc, walIndex_ver r (ver_succ_lt hg hv)] at h; exact h.symm
  · cases r with
    | succ r => rw [ver_succ, ver_succ] at hc; omega
    | zero =>
      rw [ver_zero] at h hc
      rw [ver_succ] at hc
      rcases hg.fresh with ⟨h3, -⟩ | ⟨h3, h4, -⟩
      · rw [h3] at h hc
        unfold walIndex at h
        split at h
        · by_cases h5 : g.initialVersion = 2
          · rw [h5] at h; simp at h; omega
          · rw [Nat.mod_eq_of_lt (by omega)] at h; omega
        · omega
      · omega

theorem DiskInv.pruneWal {g hist d} (hg : Genesis g) (hh : HistInv g hist) (hd : DiskInv H g hist d) :
    DiskInv H g hist (d.pruneWal g.initialVersion) := by
  unfold Disk.pruneWal
  cases ht : d.wal.truncateFront (walIndex (d.firstSnapshot + 1) g.initialVersion) with
  | none => exact hd
  | some w =>
    obtain ⟨h1, h2, h3, h4, h5, h6⟩ := Wal.truncateFront_read ht hd.first
    obtain ⟨m, hm, hmin⟩ := firstSnapshot_mem hd
    obtain ⟨-, -, -, k4, r, hr⟩ := hh.mem _ _ (hd.snaps _ _ hm)
    have hi := firstIndex_prune hg (hr ▸ k4) (by rw [← hr]) (by have := hd.first; omega) h2 (hd.last_lt hh)
    rw [hr] at h1 h2 h3 h6
    rw [hr] at hi
    refine ⟨?_, fun h => absurd h h5, ?_, hd.snaps, ?_, hd.sorted, hd.cur⟩
    · simp only [Option.getD_some, h3]; omega
    · intro j e hj
      simp only [Option.getD_some] at hj
      have := (Wal.read_some hj).1
      rw [h6 j (by omega)] at hj
      exact hd.wal j e hj
    · intro v m' hm' q hq
      have := hmin _ hm'
      rw [hr, hq] at this
      simp only [ver_le_iff hg] at this
      simp only [Option.getD_some, h3, hi]; omega

theorem last_pruneWal {g hist d} (hd : DiskInv H g hist d) (i : Nat) : (d.pruneWal i).wal.last = d.wal.last := by
  unfold Disk.pruneWal
  cases ht : d.wal.truncateFront (walIndex (d.firstSnapshot + 1) i) with
  | none => rfl
  | some w => exact (Wal.truncateFront_read ht hd.first).2.2.2.1

theorem Inv.pruneWal {g s} (hg : Genesis g) (hi : Inv H g s) :
    Inv H g { s with db := { s.db with disk := s.db.disk.pruneWal s.db.mt.initialVersion } } := by
  obtain ⟨rm, b, m1, m2, m3, m4, m5, m6, m7, m8⟩ := hi.mt_fields
  refine ⟨hi.hist, by rw [m6]; exact hi.disk.pruneWal hg hi.hist, hi.queue, hi.live, hi.pend, hi.curLive, hi.rew,
    hi.rewLe, ?_, hi.queueLe, hi.snapLe, hi.doneLe, hi.renamed⟩
  intro h
  simp only [last_pruneWal hi.disk] at h ⊢
  exact hi.walLe h

/-! ### Restart and rollback -/

theorem Inv.opened {g s d t sv hist} (hg : Genesis g) (hh : HistInv g hist) (hd : DiskInv H g hist d) {q : Nat}
    (ht : (ver g q, t) ∈ hist) (hc : d.current ≤ ver g q) (hl : d.wal.last ≤ q) (hsv : sv ≤ d.current) :
    Inv H g { db := DB.opened s d t sv, history := hist } := by
  have hv := (hh.mem _ _ ht).1
  refine ⟨hh, hd, by simp [DB.opened], ⟨t, by rw [hv]; exact ht, applyWALEntry_empty t⟩, by simp [DB.opened], ?_, by simp [DB.opened], by simp [DB.opened], ?_,
    by simp [DB.opened], hsv, by simp [DB.opened], by simp [DB.opened]⟩
  · show _ ≤ t.version; rw [hv]; exact hc
  · intro _; show _ ≤ t.version; rw [hv]; exact ver_le hg hl

theorem Inv.restart {g s db} (hg : Genesis g) (hi : Inv H g s) (h : s.db.restart H = some db) : Inv H g { s with db } := by
  unfold DB.restart at h
  obtain ⟨t, ht, rfl⟩ := Option.map_eq_some_iff.1 h
  obtain ⟨v, q, r, h1, h2, h3, h4, h5, -⟩ := loadTree_sound hg hi.disk hi.hist ht
  have hv := (pick_mem hi.disk h1).2.2 rfl
  have := h5 rfl
  exact Inv.opened hg hi.hist hi.disk h4 (by rw [← hv, h2]; exact ver_le hg h3) (by omega) (Nat.le_refl _)

theorem Wal.truncateBack_read {w w' : Wal} {i : Nat} (h : w.truncateBack i = some w') (h1 : 1 ≤ w.first) :
    w.first ≤ i ∧ i ≤ w.last ∧ w'.first = w.first ∧ w'.last = i ∧ w'.entries ≠ [] ∧
      ∀ j, j ≤ i → w'.read j = w.read j := by
  unfold Wal.truncateBack at h
  split at h
  · rename_i hc
    cases h
    have hc' := hc
    unfold Wal.last at hc'
    refine ⟨hc.1, hc.2, rfl, ?_, ?_, ?_⟩
    · unfold Wal.last; simp; omega
    · intro h0
      have := congrArg List.length h0
      rw [List.length_take, List.length_nil] at this; omega
    · intro j hj
      unfold Wal.read
      simp only
      split
      · rfl
      · rw [List.getElem?_take, if_pos (by omega)]
  · cases h

theorem HistInv.filter {g hist} (hh : HistInv g hist) (f : Nat × MultiTree → Bool) : HistInv g (hist.filter f) :=
  ⟨fun v m h => hh.mem v m (List.mem_filter.1 h).1,
   fun v m m' h h' => hh.func v m m' (List.mem_filter.1 h).1 (List.mem_filter.1 h').1⟩

theorem Inv.rollback {g s db target} (hg : Genesis g) (hi : Inv H g s) (h0 : 0 < target) (h32 : target < 2 ^ 32)
    (h : s.db.rollback H target = some db) :
    Inv H g { db, history := s.history.filter fun p => decide (p.1 ≤ target) } ∧ db.mt.version = target ∧
      db.disk.wal.last = walIndex target g.initialVersion ∧ 1 ≤ db.disk.wal.last := by
  unfold DB.rollback at h
  obtain ⟨t, ht, h'⟩ := Option.bind_eq_some_iff.1 h
  obtain ⟨d, hd, rfl⟩ := Option.map_eq_some_iff.1 h'
  clear h h'
  obtain ⟨v, q, r, h1, h2, h3, h4, -, h6⟩ := loadTree_sound hg hi.disk hi.hist ht
  obtain ⟨h7, h8⟩ := h6 h0 h32
  obtain ⟨⟨mv, hmv⟩, hvt, -⟩ := pick_mem hi.disk h1
  unfold Disk.rollback at hd
  rw [h1, Option.bind_some] at hd
  obtain ⟨d1, hd1, hd'⟩ := Option.bind_eq_some_iff.1 hd
  clear hd
  obtain ⟨w, hw, rfl⟩ := Option.map_eq_some_iff.1 hd'
  clear hd'
  have hd1' : d1.wal = s.db.disk.wal ∧ d1.snaps = s.db.disk.snaps ∧ d1.current = v := by
    split at hd1
    · unfold Disk.setCurrent at hd1
      split at hd1
      · cases hd1
      · cases hd1; exact ⟨rfl, rfl, rfl⟩
    · rename_i hv
      cases hd1; exact ⟨rfl, rfl, by omega⟩
  obtain ⟨w1, w2, w3⟩ := hd1'
  rw [(hi.hist.mem _ _ h4).2.1, w1] at hw
  obtain ⟨k1, k2, k3, k4, k5, k6⟩ := Wal.truncateBack_read hw hi.disk.first
  have hf := hi.disk.first
  have hlast := hi.disk.last_lt hi.hist
  have htv := ver_of_walIndex hg h32 rfl (by omega) (by omega)
  have hq : q = walIndex target g.initialVersion := by
    rcases h8 with h8 | ⟨h8, h9⟩
    · exact ver_inj hg (h8.trans htv)
    · rw [htv, ver_le_iff hg] at h7; omega
  have hqt : ver g q = target := by rw [hq]; exact htv.symm
  have hle : ∀ k m, (ver g k, m) ∈ s.history → k ≤ q →
      (ver g k, m) ∈ s.history.filter fun p => decide (p.1 ≤ target) := by
    intro k m hm hk
    rw [List.mem_filter]
    refine ⟨hm, ?_⟩
    simp only [decide_eq_true_eq]
    rw [← hqt]; exact ver_le hg hk
  have k4p : 1 ≤ w.last := by rw [k4]; omega
  refine ⟨?_, ?_, k4, k4p⟩
  · refine Inv.opened (q := q) hg (hi.hist.filter _) ⟨?_, fun h => absurd h k5, ?_, ?_, ?_, ?_, ?_⟩ (hle q t h4 (Nat.le_refl _)) ?_ ?_ ?_
    · simp only [k3]; exact hf
    · intro j e hj
      have := (Wal.read_some hj).2
      simp only [k4] at this
      simp only [k6 j this] at hj
      obtain ⟨e0, p, c, e1, e2, e3⟩ := hi.disk.wal j e hj
      exact ⟨e0, p, c, hle _ _ e1 (by omega), hle _ _ e2 (by omega), e3⟩
    · intro v' m hm
      simp only [w2] at hm
      rw [List.mem_filter] at hm ⊢
      exact ⟨hi.disk.snaps _ _ hm.1, hm.2⟩
    · intro v' m hm
      simp only [w2] at hm
      simp only [k3]
      exact hi.disk.reach v' m (List.mem_filter.1 hm).1
    · simp only [w2]; exact hi.disk.sorted.filter _
    · refine ⟨mv, ?_⟩
      simp only [w2, w3]
      rw [List.mem_filter]
      exact ⟨hmv, by simpa using hvt h0⟩
    · simp only [w3, h2]; exact ver_le hg h3
    · simp only [k4]; omega
    · simp [w3, h1]
  · show t.version = target
    rw [(hi.hist.mem _ _ h4).1, hqt]

theorem Inv.step {g s s' a} (hg : Genesis g) (hi : Inv H g s) (hu : Usage H s a) (h : s.step H a = some s') : Inv H g s' := by
  unfold Sys.step at h
  obtain ⟨db, h', rfl⟩ := Option.map_eq_some_iff.1 h
  cases a with
  | upgrades us => exact hi.upgrades hu h'
  | changes css =>
    simp only [DB.step] at h'
    cases hc : s.db.applyChangeSets css with
    | mk d ok =>
      rw [hc] at h'
      cases ok with
      | false => simp at h'
      | true => simp only [if_true, Option.some.injEq] at h'; subst h'; exact hi.changes hu hc
  | change cs =>
    simp only [DB.step] at h'
    cases hc : s.db.applyChangeSet cs with
    | mk d ok =>
      rw [hc] at h'
      cases ok with
      | false => simp at h'
      | true => simp only [if_true, Option.some.injEq] at h'; subst h'; exact hi.change hc
  | commit => exact hi.commit hg hu h'
  | writeQueued => exact hi.writeQueued h'
  | rewriteStart =>
    simp only [DB.step] at h'
    split at h'
    · cases h'
    · rename_i hn
      simp only [Option.some.injEq] at h'; subst h'
      exact hi.rewriteStart hu (by simpa using hn)
  | rewriteStep => exact hi.rewriteStep hg h'
  | switch => exact hi.switch hg h'
  | pruneDirs n => simp only [DB.step, Option.some.injEq] at h'; subst h'; exact hi.pruneDirs _ n
  | pruneWal => simp only [DB.step, Option.some.injEq] at h'; subst h'; exact hi.pruneWal hg
  | restart => exact hi.restart hg h'
  | rollback target =>
    simp only [DB.step] at h'
    split at h'
    · cases h'
    · exact (hi.rollback hg (by omega) (by omega) h').1

theorem Reach.inv {g async keep s} (hg : Genesis g) (h : Reach H g async keep s) : Inv H g s := by
  induction h with
  | start => exact Inv.start hg async keep
  | step s s' a _ hu hs ih => exact ih.step hg hu hs

end MemIAVL
