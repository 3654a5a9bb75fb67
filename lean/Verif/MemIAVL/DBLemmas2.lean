import Verif.MemIAVL.DBLemmas
/-! Helper lemmas for the database model: versions and log indices, replay, loading. -/
namespace MemIAVL
open MultiTree

variable (H : Bytes → Bytes)

/-- Version number of the `r`-th commit after the start; also the one with log index `r`. -/
def ver (g : MultiTree) (r : Nat) : Nat := if r = 0 then g.version else g.initialVersion - 1 + r

theorem ver_zero (g : MultiTree) : ver g 0 = g.version := by simp [ver]
theorem ver_succ (g : MultiTree) (r : Nat) : ver g (r + 1) = g.initialVersion - 1 + (r + 1) := by simp [ver]

theorem Genesis.start_le {g : MultiTree} (hg : Genesis g) : g.version ≤ g.initialVersion - 1 := by
  rcases hg.fresh with ⟨h, -⟩ | ⟨h1, h2, -⟩ <;> omega

theorem ver_lt_succ {g : MultiTree} (hg : Genesis g) (r : Nat) : ver g r < ver g (r + 1) := by
  have := hg.start_le
  cases r with
  | zero => rw [ver_zero, ver_succ]; omega
  | succ r => rw [ver_succ, ver_succ]; omega

theorem ver_lt {g : MultiTree} (hg : Genesis g) {r q : Nat} (h : r < q) : ver g r < ver g q := by
  induction q with
  | zero => omega
  | succ q ih =>
    have := ver_lt_succ hg q
    by_cases h' : r = q
    · subst h'; exact this
    · have := ih (by omega); omega

theorem ver_le {g : MultiTree} (hg : Genesis g) {r q : Nat} (h : r ≤ q) : ver g r ≤ ver g q := by
  by_cases h' : r = q
  · subst h'; omega
  · have := ver_lt hg (show r < q by omega); omega

theorem ver_lt_iff {g : MultiTree} (hg : Genesis g) {r q : Nat} : ver g r < ver g q ↔ r < q := by
  constructor
  · intro h
    by_cases h' : q ≤ r
    · have := ver_le hg h'; omega
    · omega
  · exact ver_lt hg

theorem ver_le_iff {g : MultiTree} (hg : Genesis g) {r q : Nat} : ver g r ≤ ver g q ↔ r ≤ q := by
  have := ver_lt_iff hg (r := q) (q := r); omega

theorem ver_inj {g : MultiTree} (hg : Genesis g) {r q : Nat} (h : ver g r = ver g q) : r = q := by
  have h1 := ver_lt_iff hg (r := r) (q := q)
  have h2 := ver_lt_iff hg (r := q) (q := r)
  omega

theorem le_ver {g : MultiTree} (r : Nat) : r ≤ ver g r ∨ r = 0 := by
  cases r with
  | zero => omega
  | succ r => left; rw [ver_succ]; omega

theorem nextVersion_ver {g : MultiTree} (hg : Genesis g) (r : Nat) : nextVersion (ver g r) g.initialVersion = ver g (r + 1) := by
  rw [ver_succ]
  unfold nextVersion
  cases r with
  | zero =>
    rw [ver_zero]
    rcases hg.fresh with ⟨h, -⟩ | ⟨h1, h2, -⟩
    · split <;> omega
    · rw [if_neg (by omega)]; omega
  | succ r => rw [ver_succ, if_neg (by omega)]; omega

theorem walIndex_ver {g : MultiTree} (r : Nat) (h : ver g (r + 1) < 2 ^ 64) :
    walIndex (ver g (r + 1)) g.initialVersion = r + 1 := by
  rw [ver_succ] at *
  unfold walIndex
  split
  · rename_i hi
    have e : g.initialVersion - 1 + (r + 1) + 2 ^ 64 - g.initialVersion + 1 = (r + 1) + 2 ^ 64 := by omega
    rw [e, Nat.add_mod_right, Nat.mod_eq_of_lt (by omega)]
  · omega

theorem ver_succ_lt {g : MultiTree} (hg : Genesis g) {r : Nat} (h : ver g r < 2 ^ 63) : ver g (r + 1) < 2 ^ 64 := by
  have := hg.small
  cases r with
  | zero => rw [ver_succ]; omega
  | succ r => rw [ver_succ] at *; omega

/-- A 32-bit version whose log index lies in the log is the version of that commit. -/
theorem ver_of_walIndex {g : MultiTree} {target q : Nat} (hg : Genesis g) (ht : target < 2 ^ 32)
    (h : walIndex target g.initialVersion = q) (h1 : 1 ≤ q) (h2 : q < 2 ^ 63) : target = ver g q := by
  obtain ⟨r, rfl⟩ : ∃ r, q = r + 1 := ⟨q - 1, by omega⟩
  have := hg.small
  rw [ver_succ]
  unfold walIndex at h
  split at h
  · by_cases hc : g.initialVersion ≤ target + 1
    · have e : target + 2 ^ 64 - g.initialVersion + 1 = (target + 1 - g.initialVersion) + 2 ^ 64 := by omega
      rw [e, Nat.add_mod_right, Nat.mod_eq_of_lt (by omega)] at h
      omega
    · rw [Nat.mod_eq_of_lt (by omega)] at h
      omega
  · omega

/-- What is known about a history. -/
structure HistInv (g : MultiTree) (hist : List (Nat × MultiTree)) : Prop where
  mem : ∀ v m, (v, m) ∈ hist → m.version = v ∧ m.initialVersion = g.initialVersion ∧ m.Good ∧ v < 2 ^ 63 ∧ ∃ r, v = ver g r
  func : ∀ v m m', (v, m) ∈ hist → (v, m') ∈ hist → m = m'

/-- Log entry `i` leads from commit `i-1` to commit `i`. -/
def EntryOK (g : MultiTree) (hist : List (Nat × MultiTree)) (i : Nat) (e : WALEntry) : Prop :=
  1 ≤ i ∧ ∃ p c, (ver g (i - 1), p) ∈ hist ∧ (ver g i, c) ∈ hist ∧ Next H p e c

/-- What is known about the directory. -/
structure DiskInv (g : MultiTree) (hist : List (Nat × MultiTree)) (d : Disk) : Prop where
  first : 1 ≤ d.wal.first
  empty : d.wal.entries = [] → d.wal.first = 1
  wal : ∀ i e, d.wal.read i = some e → EntryOK H g hist i e
  snaps : ∀ v m, (v, m) ∈ d.snaps → (v, m) ∈ hist
  reach : ∀ v m, (v, m) ∈ d.snaps → ∀ r, v = ver g r → d.wal.first ≤ r + 1
  sorted : d.snaps.Pairwise (fun a b => a.1 < b.1)
  cur : ∃ m, (d.current, m) ∈ d.snaps

theorem Wal.read_some {w : Wal} {i : Nat} {e} (h : w.read i = some e) : w.first ≤ i ∧ i ≤ w.last := by
  unfold Wal.read at h
  split at h
  · cases h
  · have := (List.getElem?_eq_some_iff.1 h).1
    unfold Wal.last; omega

theorem Wal.read_of {w : Wal} {i : Nat} (h0 : 1 ≤ w.first) (h1 : w.first ≤ i) (h2 : i ≤ w.last) : ∃ e, w.read i = some e := by
  unfold Wal.read Wal.last at *
  rw [if_neg (by omega)]
  exact ⟨_, List.getElem?_eq_getElem (by omega)⟩

theorem Wal.last_pos {w : Wal} (h0 : 1 ≤ w.first) (he : w.entries = [] → w.first = 1) (h : 1 ≤ w.last) : w.first ≤ w.last := by
  unfold Wal.last at *
  cases hw : w.entries with
  | nil => have := he hw; simp [hw] at h; omega
  | cons x l => simp [hw]

variable {H}

theorem DiskInv.last_mem {g hist d} (hd : DiskInv H g hist d) (h : 1 ≤ d.wal.last) :
    ∃ c, (ver g d.wal.last, c) ∈ hist := by
  obtain ⟨e, he⟩ := Wal.read_of hd.first (Wal.last_pos hd.first hd.empty h) (Nat.le_refl _)
  obtain ⟨-, p, c, -, h2, -⟩ := hd.wal _ e he
  exact ⟨c, h2⟩

theorem DiskInv.last_lt {g hist d} (hh : HistInv g hist) (hd : DiskInv H g hist d) : d.wal.last < 2 ^ 63 := by
  by_cases h : 1 ≤ d.wal.last
  · obtain ⟨c, hc⟩ := hd.last_mem h
    have := (hh.mem _ _ hc).2.2.2.1
    have := le_ver (g := g) d.wal.last
    omega
  · omega

/-- Replaying `n` entries. -/
theorem replay_sound {g hist d} (hd : DiskInv H g hist d) (hh : HistInv g hist) {n i : Nat} {t t' p : MultiTree}
    (hi : 1 ≤ i) (hc : t.core = p.core) (hp : (ver g (i - 1), p) ∈ hist) (h : t.replay H d.wal i n = some t') :
    ∃ c, (ver g (i - 1 + n), c) ∈ hist ∧ t'.core = c.core ∧ (0 < n → t'.updateCommitInfo H = c) := by
  induction n generalizing i t p with
  | zero => simp only [replay, Option.some.injEq] at h; subst h; exact ⟨p, hp, hc, by omega⟩
  | succ n ih =>
    simp only [replay] at h
    obtain ⟨e, he, h⟩ := Option.bind_eq_some_iff.1 h
    obtain ⟨m, hm, h⟩ := Option.bind_eq_some_iff.1 h
    obtain ⟨m', hm', h⟩ := Option.bind_eq_some_iff.1 h
    obtain ⟨-, p', c, hp', hc', hnext⟩ := hd.wal i e he
    have : p' = p := hh.func _ _ _ hp' hp
    subst this
    obtain ⟨m1, t1, h1, h2, h3, h4⟩ := hnext.replay H hc
    rw [hm] at h1; cases h1
    rw [hm'] at h2; cases h2
    obtain ⟨c', h5, h6, h7⟩ := ih (i := i + 1) (by omega) h3 hc' h
    refine ⟨c', by rw [show i - 1 + (n + 1) = i + 1 - 1 + n by omega]; exact h5, h6, fun _ => ?_⟩
    by_cases hn : 0 < n
    · exact h7 hn
    · have : n = 0 := by omega
      subst this
      simp only [replay, Option.some.injEq] at h
      subst h
      rw [h4]
      exact hh.func _ _ _ hc' h5

theorem replay_complete {g hist d} (hd : DiskInv H g hist d) (hh : HistInv g hist) {n i : Nat} {t p : MultiTree}
    (hi : d.wal.first ≤ i) (hl : i + n ≤ d.wal.last + 1) (hc : t.core = p.core) (hp : (ver g (i - 1), p) ∈ hist) :
    ∃ t', t.replay H d.wal i n = some t' := by
  induction n generalizing i t p with
  | zero => exact ⟨t, rfl⟩
  | succ n ih =>
    obtain ⟨e, he⟩ := Wal.read_of hd.first hi (by omega)
    obtain ⟨-, p', c, hp', hc', hnext⟩ := hd.wal i e he
    have : p' = p := hh.func _ _ _ hp' hp
    subst this
    obtain ⟨m1, t1, h1, h2, h3, h4⟩ := hnext.replay H hc
    obtain ⟨t', ht'⟩ := ih (i := i + 1) (by omega) (by omega) h3 hc'
    exact ⟨t', by simp only [replay, he, Option.bind_some, h1, h2, ht']⟩

theorem firstIndex_eq {g hist} (hg : Genesis g) (hh : HistInv g hist) {r : Nat} {t : MultiTree} (ht : (ver g r, t) ∈ hist) :
    walIndex (nextVersion t.version t.initialVersion) t.initialVersion = r + 1 := by
  obtain ⟨e1, e2, -, e4, -⟩ := hh.mem _ _ ht
  rw [e1, e2, nextVersion_ver hg]
  exact walIndex_ver r (ver_succ_lt hg e4)

/-- `CatchupWAL` ends at a committed state. -/
theorem catchup_sound {g hist d} (hg : Genesis g) (hd : DiskInv H g hist d) (hh : HistInv g hist) {r ev : Nat}
    {t t' : MultiTree} (ht : (ver g r, t) ∈ hist) (h : t.catchupWAL H d.wal ev = some t') :
    ∃ q, (ver g q, t') ∈ hist ∧ r ≤ q ∧ (d.wal.last ≤ r → q = r) ∧ (ev = 0 → r ≤ d.wal.last → q = d.wal.last) ∧
      (ev ≠ 0 → r < d.wal.last → q = walIndex ev g.initialVersion ∧ r < q ∧ q ≤ d.wal.last) := by
  unfold catchupWAL at h
  simp only [firstIndex_eq hg hh ht] at h
  have e2 := (hh.mem _ _ ht).2.1
  rw [e2] at h
  split at h
  · cases h
    exact ⟨r, ht, Nat.le_refl _, fun _ => rfl, by omega, by omega⟩
  · rename_i h1
    generalize hE : (if ev = 0 then d.wal.last else walIndex ev g.initialVersion) = E at h
    split at h
    · cases h
    split at h
    · cases h
    rename_i h2 h3
    obtain ⟨t1, h4, rfl⟩ := Option.map_eq_some_iff.1 h
    obtain ⟨c, h5, h6, h7⟩ := replay_sound hd hh (show 1 ≤ r + 1 by omega) rfl (p := t) (by simpa using ht) h4
    rw [h7 (by omega)]
    refine ⟨E, ?_, by omega, by omega, ?_, ?_⟩
    · rw [show E = r + 1 - 1 + (E + 1 - (r + 1)) by omega]; exact h5
    · intro he _; rw [if_pos he] at hE; exact hE.symm
    · intro he _; rw [if_neg he] at hE; exact ⟨hE.symm, by omega, by omega⟩

theorem catchup_complete {g hist d} (hg : Genesis g) (hd : DiskInv H g hist d) (hh : HistInv g hist) {r ev : Nat}
    {t : MultiTree} (ht : (ver g r, t) ∈ hist) (hr : d.wal.first ≤ r + 1)
    (hev : ev = 0 ∨ (r < walIndex ev g.initialVersion ∧ walIndex ev g.initialVersion ≤ d.wal.last)) :
    ∃ t', t.catchupWAL H d.wal ev = some t' := by
  unfold catchupWAL
  simp only [firstIndex_eq hg hh ht]
  have e2 := (hh.mem _ _ ht).2.1
  rw [e2]
  split
  · exact ⟨t, rfl⟩
  · rename_i h1
    generalize hE : (if ev = 0 then d.wal.last else walIndex ev g.initialVersion) = E
    have hb : r + 1 ≤ E ∧ E ≤ d.wal.last := by
      rcases hev with rfl | h
      · rw [if_pos rfl] at hE; omega
      · split at hE <;> omega
    rw [if_neg (by omega), if_neg (by omega)]
    obtain ⟨t', h⟩ := replay_complete hd hh (t := t) (p := t) hr (show r + 1 + (E + 1 - (r + 1)) ≤ d.wal.last + 1 by omega) rfl
      (by simpa using ht)
    exact ⟨_, by rw [h]; rfl⟩

theorem Disk.find_mem {d : Disk} {v : Nat} {m} (h : d.find v = some m) : (v, m) ∈ d.snaps := by
  unfold Disk.find at h
  obtain ⟨p, hp, rfl⟩ := Option.map_eq_some_iff.1 h
  have h1 := List.mem_of_find?_eq_some hp
  have h2 := List.find?_some hp
  have : p.1 = v := by simpa using h2
  rw [← this]; exact h1

theorem Disk.mem_find {d : Disk} {v : Nat} {m} (hs : d.snaps.Pairwise (fun a b => a.1 < b.1)) (h : (v, m) ∈ d.snaps) :
    d.find v = some m := by
  unfold Disk.find
  generalize d.snaps = l at *
  induction l with
  | nil => simp at h
  | cons x l ih =>
    rw [List.pairwise_cons] at hs
    rcases List.mem_cons.1 h with rfl | h
    · simp
    · have := hs.1 _ h
      have hx : (x.1 == v) = false := by simp; omega
      rw [List.find?_cons, hx]; exact ih hs.2 h

theorem seekIn_mem {target v : Nat} {l} (h : Disk.seekIn target l = some v) : (∃ m, (v, m) ∈ l) ∧ v ≤ target := by
  induction l with
  | nil => simp [Disk.seekIn] at h
  | cons x l ih =>
    obtain ⟨w, m⟩ := x
    simp only [Disk.seekIn] at h
    split at h
    · cases h
    split at h
    · cases h; rename_i h; exact ⟨⟨m, by simp⟩, h⟩
    · obtain ⟨⟨m', h1⟩, h2⟩ := ih h; exact ⟨⟨m', by simp [h1]⟩, h2⟩

theorem pick_mem {g hist d} (hd : DiskInv H g hist d) {target v : Nat} (h : d.pick target = some v) :
    (∃ m, (v, m) ∈ d.snaps) ∧ (0 < target → v ≤ target) ∧ (target = 0 → v = d.current) := by
  unfold Disk.pick at h
  split at h
  · obtain ⟨⟨m, h1⟩, h2⟩ := seekIn_mem h
    exact ⟨⟨m, by simpa using h1⟩, fun _ => h2, by omega⟩
  · cases h; exact ⟨hd.cur, by omega, fun _ => rfl⟩

/-- Whatever `Load` returns is a committed state. -/
theorem loadTree_sound {g hist d} (hg : Genesis g) (hd : DiskInv H g hist d) (hh : HistInv g hist) {target : Nat}
    {t : MultiTree} (h : d.loadTree H target = some t) :
    ∃ v q r, d.pick target = some v ∧ v = ver g r ∧ r ≤ q ∧ (ver g q, t) ∈ hist ∧
      (target = 0 → q = max r d.wal.last) ∧
      (0 < target → target < 2 ^ 32 → ver g q ≤ target ∧ (ver g q = target ∨ (q = r ∧ d.wal.last ≤ r))) := by
  unfold Disk.loadTree at h
  obtain ⟨v, hv, h'⟩ := Option.bind_eq_some_iff.1 h
  obtain ⟨m, hm, h''⟩ := Option.bind_eq_some_iff.1 h'
  clear h h'
  have hmem := hd.snaps v m (Disk.find_mem hm)
  obtain ⟨e1, e2, e3, e4, r, rfl⟩ := hh.mem _ _ hmem
  have hp := pick_mem hd hv
  simp only [e3.load] at h''
  split at h''
  · rename_i hc
    obtain ⟨q, h1, h2, h3, h4, h5⟩ := catchup_sound hg hd hh hmem h''
    refine ⟨_, q, r, hv, rfl, h2, h1, ?_, ?_⟩
    · intro h0
      by_cases hl : d.wal.last ≤ r
      · have := h3 hl; omega
      · have := h4 h0 (by omega); omega
    · intro h0 h32
      rw [e1] at hc
      by_cases hl : d.wal.last ≤ r
      · have := h3 hl
        subst this
        exact ⟨hp.2.1 h0, .inr ⟨rfl, hl⟩⟩
      · obtain ⟨h6, h7, h8⟩ := h5 (by omega) (by omega)
        have := hd.last_lt hh
        have h9 := ver_of_walIndex hg h32 h6.symm (by omega) (by omega)
        exact ⟨by omega, .inl h9.symm⟩
  · rename_i hc
    cases h''
    rw [e1] at hc
    refine ⟨_, r, r, hv, rfl, Nat.le_refl _, hmem, by omega, ?_⟩
    intro h0 h32
    have := hp.2.1 h0
    exact ⟨this, .inl (by omega)⟩

end MemIAVL
