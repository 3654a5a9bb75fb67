import Verif.Authority.TransfersSpec
/-! # Allowances for IBC transfers: lemmas about limits and authorisations -/
namespace Ics
variable {W : Type}

theorem top_eq : top = unlimited := by decide +kernel

theorem allows_eq (as : List Alloc) (p c d : Nat) :
    (Auth.transfer as).allows p c d = match lookup as p c with | none => 0 | some a => amountOf a.limit d := by
  unfold Auth.allows lookup amountOf KV.get
  dsimp only
  split
  · next h => rw [h]
  · next a h =>
    rw [h]
    dsimp only
    split
    · next h2 => rw [h2]; rfl
    · next e h2 => rw [h2]; rfl

theorem allows_of_lookup {as : List Alloc} {p c : Nat} {a : Alloc} (h : lookup as p c = some a) (d : Nat) :
    (Auth.transfer as).allows p c d = amountOf a.limit d := by
  rw [allows_eq, h]

theorem allows_of_lookup_none {as : List Alloc} {p c : Nat} (h : lookup as p c = none) (d : Nat) :
    (Auth.transfer as).allows p c d = 0 := by
  rw [allows_eq, h]

theorem amountOf_eq {l : List (Nat × Nat)} {d n : Nat} (h : KV.get l d = some n) : amountOf l d = n := by
  unfold amountOf; rw [h]; rfl

theorem amountOf_cons (e : Nat × Nat) (l : List (Nat × Nat)) (d : Nat) :
    amountOf (e :: l) d = if e.1 = d then e.2 else amountOf l d := by
  unfold amountOf
  rw [KV.get_cons]
  split <;> rfl

theorem amountOf_absent {l : List (Nat × Nat)} {d : Nat} (h : d ∉ l.map (·.1)) : amountOf l d = 0 := by
  unfold amountOf
  have : KV.get l d = none := KV.get_eq_none.2 (fun e he heq => h (List.mem_map.2 ⟨e, he, heq⟩))
  rw [this]; rfl

theorem amountOf_putCoin {l : List (Nat × Nat)} (hn : (l.map (·.1)).Nodup) {d m : Nat} (h : KV.get l d = some m) (n d' : Nat) :
    amountOf (putCoin l d n) d' = if d' = d then n else amountOf l d' := by
  induction l with
  | nil => cases h
  | cons e l ih =>
    rw [List.map_cons, List.nodup_cons] at hn
    unfold putCoin
    by_cases he : e.1 = d
    · rw [if_pos he]
      by_cases h0 : n = 0
      · rw [if_pos h0, amountOf_cons]
        by_cases hd : d' = d
        · rw [if_pos hd, amountOf_absent (by rw [hd, ← he]; exact hn.1), h0]
        · rw [if_neg hd, if_neg (fun hh => hd (hh.symm.trans he))]
      · rw [if_neg h0, amountOf_cons, amountOf_cons]
        by_cases hd : d' = d
        · rw [if_pos hd.symm, if_pos hd]
        · rw [if_neg (fun hh => hd hh.symm), if_neg hd, if_neg (fun hh => hd (hh.symm.trans he))]
    · rw [if_neg he, amountOf_cons, amountOf_cons]
      rw [KV.get_cons, if_neg he] at h
      rw [ih hn.2 h]
      by_cases hd : d' = d
      · rw [if_pos hd, if_pos hd, if_neg (fun hh => he (hh.trans hd))]
      · rw [if_neg hd, if_neg hd]

theorem putCoin_names (l : List (Nat × Nat)) (d n : Nat) : ((putCoin l d n).map (·.1)).Sublist (l.map (·.1)) := by
  induction l with
  | nil => exact List.Sublist.refl _
  | cons e l ih =>
    unfold putCoin
    by_cases he : e.1 = d
    · rw [if_pos he]
      by_cases h0 : n = 0
      · rw [if_pos h0, List.map_cons]; exact List.sublist_cons_self _ _
      · rw [if_neg h0, List.map_cons, List.map_cons, he]; exact List.Sublist.refl _
    · rw [if_neg he, List.map_cons, List.map_cons]
      exact ih.cons_cons _

theorem mem_putCoin {l : List (Nat × Nat)} {d n : Nat} {e : Nat × Nat} (h : e ∈ putCoin l d n) : e ∈ l ∨ (e = (d, n) ∧ n ≠ 0) := by
  induction l with
  | nil => cases h
  | cons x l ih =>
    unfold putCoin at h
    by_cases he : x.1 = d
    · rw [if_pos he] at h
      by_cases h0 : n = 0
      · rw [if_pos h0] at h; exact .inl (List.mem_cons_of_mem _ h)
      · rw [if_neg h0] at h
        rcases List.mem_cons.1 h with h | h
        · exact .inr ⟨h, h0⟩
        · exact .inl (List.mem_cons_of_mem _ h)
    · rw [if_neg he] at h
      rcases List.mem_cons.1 h with h | h
      · exact .inl (by rw [h]; exact List.mem_cons_self)
      · rcases ih h with h | h
        · exact .inl (List.mem_cons_of_mem _ h)
        · exact .inr h

theorem lookup_cons (a : Alloc) (as : List Alloc) (p c : Nat) :
    lookup (a :: as) p c = if a.port = p ∧ a.chan = c then some a else lookup as p c := by
  unfold lookup
  by_cases h : a.port = p ∧ a.chan = c
  · rw [if_pos h, List.find?_cons_of_pos (by simp [h])]
  · rw [if_neg h, List.find?_cons_of_neg (by simp at h ⊢; exact h)]

theorem lookup_mem {as : List Alloc} {p c : Nat} {a : Alloc} (h : lookup as p c = some a) : a ∈ as ∧ a.port = p ∧ a.chan = c :=
  ⟨List.mem_of_find?_eq_some h, by simpa using List.find?_some h⟩

theorem lookup_none {as : List Alloc} {p c : Nat} (h : c ∉ as.map (·.chan)) : lookup as p c = none := by
  unfold lookup
  rw [List.find?_eq_none]
  intro a ha hh
  simp at hh
  exact h (List.mem_map.2 ⟨a, ha, hh.2⟩)

theorem lookup_replace_some {as : List Alloc} {p c : Nat} {a y : Alloc} (h : lookup as p c = some a) (hy : y.port = p ∧ y.chan = c) (p' c' : Nat) :
    lookup (replace as p c (some y)) p' c' = if p' = p ∧ c' = c then some y else lookup as p' c' := by
  induction as with
  | nil => cases h
  | cons x as ih =>
    rw [lookup_cons] at h
    unfold replace
    by_cases hx : x.port = p ∧ x.chan = c
    · rw [if_pos hx]
      dsimp only
      rw [lookup_cons, lookup_cons]
      by_cases hp : p' = p ∧ c' = c
      · rw [if_pos hp, if_pos ⟨hy.1.trans hp.1.symm, hy.2.trans hp.2.symm⟩]
      · rw [if_neg hp, if_neg (fun hh => hp ⟨hh.1.symm.trans hy.1, hh.2.symm.trans hy.2⟩),
          if_neg (fun hh => hp ⟨hh.1.symm.trans hx.1, hh.2.symm.trans hx.2⟩)]
    · rw [if_neg hx] at h ⊢
      rw [lookup_cons, lookup_cons, ih h]
      by_cases hp : p' = p ∧ c' = c
      · rw [if_pos hp, if_pos hp, if_neg (fun hh => hx ⟨hh.1.trans hp.1, hh.2.trans hp.2⟩)]
      · rw [if_neg hp, if_neg hp]

theorem lookup_replace_none {as : List Alloc} (hn : (as.map (·.chan)).Nodup) {p c : Nat} {a : Alloc} (h : lookup as p c = some a) (p' c' : Nat) :
    lookup (replace as p c none) p' c' = if p' = p ∧ c' = c then none else lookup as p' c' := by
  induction as with
  | nil => cases h
  | cons x as ih =>
    rw [List.map_cons, List.nodup_cons] at hn
    rw [lookup_cons] at h
    unfold replace
    by_cases hx : x.port = p ∧ x.chan = c
    · rw [if_pos hx]
      dsimp only
      rw [lookup_cons]
      by_cases hp : p' = p ∧ c' = c
      · rw [if_pos hp, lookup_none (by rw [hp.2, ← hx.2]; exact hn.1)]
      · rw [if_neg hp, if_neg (fun hh => hp ⟨hh.1.symm.trans hx.1, hh.2.symm.trans hx.2⟩)]
    · rw [if_neg hx] at h ⊢
      rw [lookup_cons, lookup_cons, ih hn.2 h]
      by_cases hp : p' = p ∧ c' = c
      · rw [if_pos hp, if_pos hp, if_neg (fun hh => hx ⟨hh.1.trans hp.1, hh.2.trans hp.2⟩)]
      · rw [if_neg hp, if_neg hp]

theorem replace_chans (as : List Alloc) (p c : Nat) (x : Option Alloc) (hx : ∀ y, x = some y → y.chan = c) :
    ((replace as p c x).map (·.chan)).Sublist (as.map (·.chan)) := by
  induction as with
  | nil => exact List.Sublist.refl _
  | cons a as ih =>
    unfold replace
    by_cases ha : a.port = p ∧ a.chan = c
    · rw [if_pos ha]
      cases x with
      | none => exact List.sublist_cons_self _ _
      | some y =>
        dsimp only
        rw [List.map_cons, List.map_cons, hx y rfl, ha.2]
        exact List.Sublist.refl _
    · rw [if_neg ha, List.map_cons, List.map_cons]
      exact ih.cons_cons _

theorem mem_replace {as : List Alloc} {p c : Nat} {x : Option Alloc} {a : Alloc} (h : a ∈ replace as p c x) : a ∈ as ∨ x = some a := by
  induction as with
  | nil => cases h
  | cons b as ih =>
    unfold replace at h
    by_cases hb : b.port = p ∧ b.chan = c
    · rw [if_pos hb] at h
      cases x with
      | none => exact .inl (List.mem_cons_of_mem _ h)
      | some y =>
        rcases List.mem_cons.1 h with h | h
        · exact .inr (by rw [h])
        · exact .inl (List.mem_cons_of_mem _ h)
    · rw [if_neg hb] at h
      rcases List.mem_cons.1 h with h | h
      · exact .inl (by rw [h]; exact List.mem_cons_self)
      · rcases ih h with h | h
        · exact .inl (List.mem_cons_of_mem _ h)
        · exact .inr h

theorem wf_replace {as : List Alloc} (hw : WellFormed as) {p c : Nat} {x : Option Alloc}
    (hx : ∀ y, x = some y → y.chan = c ∧ (y.limit.map (·.1)).Nodup ∧ ∀ e ∈ y.limit, 0 < e.2 ∧ e.2 ≤ unlimited) :
    WellFormed (replace as p c x) := by
  refine ⟨hw.1.sublist (replace_chans as p c x (fun y hy => (hx y hy).1)), fun a ha => ?_⟩
  rcases mem_replace ha with h | h
  · exact hw.2 a h
  · exact (hx a h).2

/-- A limit with another amount for one coin. -/
theorem wf_put {as : List Alloc} (hw : WellFormed as) {p c : Nat} {a : Alloc} (h : lookup as p c = some a) (d n : Nat) (hn : n ≤ unlimited) :
    WellFormed (replace as p c (some { a with limit := putCoin a.limit d n })) := by
  apply wf_replace hw
  intro y hy
  cases hy
  obtain ⟨hm, _, hc⟩ := lookup_mem h
  obtain ⟨h1, h2⟩ := hw.2 a hm
  refine ⟨hc, h1.sublist (putCoin_names _ _ _), fun e he => ?_⟩
  rcases mem_putCoin he with h | ⟨rfl, h0⟩
  · exact h2 e h
  · exact ⟨Nat.pos_of_ne_zero h0, hn⟩

theorem allows_put {as : List Alloc} (hw : WellFormed as) {p c : Nat} {a : Alloc} (h : lookup as p c = some a) {d m : Nat}
    (hd : KV.get a.limit d = some m) (n p' c' d' : Nat) :
    (Auth.transfer (replace as p c (some { a with limit := putCoin a.limit d n }))).allows p' c' d' =
      if p' = p ∧ c' = c ∧ d' = d then n else (Auth.transfer as).allows p' c' d' := by
  obtain ⟨hm, hp, hc⟩ := lookup_mem h
  rw [allows_eq, lookup_replace_some (y := { a with limit := putCoin a.limit d n }) h ⟨hp, hc⟩]
  by_cases hh : p' = p ∧ c' = c
  · rw [if_pos hh]
    dsimp only
    rw [amountOf_putCoin (hw.2 a hm).1 hd]
    by_cases hdd : d' = d
    · rw [if_pos hdd, if_pos ⟨hh.1, hh.2, hdd⟩]
    · rw [if_neg hdd, if_neg (fun x => hdd x.2.2), hh.1, hh.2, allows_of_lookup h]
  · rw [if_neg hh, if_neg (fun x => hh ⟨x.1, x.2.1⟩), allows_eq]

theorem allows_remove {as : List Alloc} (hw : WellFormed as) {p c : Nat} {a : Alloc} (h : lookup as p c = some a) (p' c' d' : Nat) :
    (Auth.transfer (replace as p c none)).allows p' c' d' = if p' = p ∧ c' = c then 0 else (Auth.transfer as).allows p' c' d' := by
  rw [allows_eq, lookup_replace_none hw.1 h]
  by_cases hh : p' = p ∧ c' = c
  · rw [if_pos hh, if_pos hh]
  · rw [if_neg hh, if_neg hh, allows_eq]

/-- What an authorisation allows after it was used. -/
def After.allows (r : After) (as : List Alloc) (p c d : Nat) : Nat :=
  match r with
  | .keep => (Auth.transfer as).allows p c d
  | .delete => 0
  | .update as' => (Auth.transfer as').allows p c d

theorem memoOk_iff {a : Alloc} {m : Msg} :
    memoOk a.memos m.memo = true ↔ ((a.memos = [] ∧ m.memo = 0) ∨ a.memos = [1] ∨ (a.memos ≠ [] ∧ m.memo ∈ a.memos)) := by
  unfold memoOk
  by_cases h0 : a.memos = []
  · rw [if_pos h0]
    simp [h0]
  · rw [if_neg h0]
    by_cases h1 : a.memos = [1]
    · rw [if_pos h1]
      simp [h1]
    · rw [if_neg h1]
      simp [h0, h1]

theorem putCoin_nil_allows {l : List (Nat × Nat)} (hn : (l.map (·.1)).Nodup) {d m n : Nat} (hd : KV.get l d = some m) (h : putCoin l d n = []) :
    n = 0 ∧ ∀ d', d' ≠ d → amountOf l d' = 0 := by
  have key := fun d' => amountOf_putCoin hn hd n d'
  rw [h] at key
  constructor
  · have := key d
    rw [if_pos rfl] at this
    exact this.symm
  · intro d' hne
    have := key d'
    rw [if_neg hne] at this
    exact this.symm

theorem accept_some {as : List Alloc} (hw : WellFormed as) {m : Msg} {r : After} (h : accept as m = some r) :
    ∃ a, lookup as m.port m.chan = some a ∧ Covers a m ∧
      ((amountOf a.limit m.name = unlimited ∧ r = .keep) ∨
       (amountOf a.limit m.name ≠ unlimited ∧ (0 < m.amount → m.amount ≤ amountOf a.limit m.name) ∧ r ≠ .keep ∧
        (∀ as', r = .update as' → WellFormed as') ∧
        ∀ p c d, r.allows as p c d + (if p = m.port ∧ c = m.chan ∧ d = m.name then m.amount else 0) = (Auth.transfer as).allows p c d)) := by
  unfold accept at h
  cases hl : lookup as m.port m.chan with
  | none => rw [hl] at h; cases h
  | some a =>
    rw [hl] at h
    dsimp only at h
    split at h
    · cases h
    next h1 =>
    split at h
    · cases h
    next h2 =>
    have hcov : Covers a m := by
      refine ⟨?_, memoOk_iff.1 (by simpa using h2)⟩
      by_cases hr : a.receivers = []
      · exact .inl hr
      · exact .inr (Classical.byContradiction (fun hc => h1 ⟨hr, hc⟩))
    refine ⟨a, rfl, hcov, ?_⟩
    rw [top_eq] at h
    split at h
    · next h3 => cases h; exact .inl ⟨h3, rfl⟩
    next h3 =>
    refine .inr ⟨h3, ?_⟩
    obtain ⟨hm, hp, hc⟩ := lookup_mem hl
    obtain ⟨hn, hpos⟩ := hw.2 a hm
    cases hg : KV.get a.limit m.name with
    | none => rw [hg] at h; cases h
    | some n =>
      rw [hg] at h
      dsimp only at h
      split at h
      · cases h
      next h4 =>
      have ham : amountOf a.limit m.name = n := amountOf_eq hg
      have hall : ∀ d, (Auth.transfer as).allows m.port m.chan d = amountOf a.limit d := allows_of_lookup hl
      split at h
      · next h5 =>
        obtain ⟨hz, hrest⟩ := putCoin_nil_allows hn hg h5
        have hrem : ∀ p c d, (Auth.transfer (replace as m.port m.chan none)).allows p c d
            + (if p = m.port ∧ c = m.chan ∧ d = m.name then m.amount else 0) = (Auth.transfer as).allows p c d := by
          intro p c d
          rw [allows_remove hw hl]
          by_cases hpc : p = m.port ∧ c = m.chan
          · rw [if_pos hpc, hpc.1, hpc.2, hall]
            by_cases hd : d = m.name
            · rw [if_pos ⟨rfl, rfl, hd⟩, hd, ham]; omega
            · rw [if_neg (fun x => hd x.2.2), hrest d hd]
          · rw [if_neg hpc, if_neg (fun x => hpc ⟨x.1, x.2.1⟩)]; rfl
        split at h
        · next h6 =>
          cases h
          refine ⟨fun _ => by omega, (fun x => nomatch x), (fun _ x => nomatch x), fun p c d => ?_⟩
          have := hrem p c d
          rw [h6] at this
          exact this
        · next h6 =>
          cases h
          refine ⟨fun _ => by omega, (fun x => nomatch x), ?_, hrem⟩
          intro as' h'
          cases h'
          exact wf_replace hw (fun y hy => nomatch hy)
      · cases h
        refine ⟨fun _ => by omega, (fun x => nomatch x), ?_, ?_⟩
        · intro as' h'
          cases h'
          apply wf_put hw hl
          have := hpos _ (KV.mem_of_get hg)
          have := this.2
          dsimp only at this
          omega
        · intro p c d
          show (Auth.transfer _).allows p c d + _ = _
          rw [allows_put hw hl hg]
          by_cases hh : p = m.port ∧ c = m.chan ∧ d = m.name
          · rw [if_pos hh, if_pos hh, hh.1, hh.2.1, hall, hh.2.2, ham]; omega
          · rw [if_neg hh, if_neg hh]; rfl

theorem accept_of {as : List Alloc} {m : Msg} {a : Alloc} (hl : lookup as m.port m.chan = some a) (hc : Covers a m) (h0 : 0 < m.amount)
    (hn : m.amount ≤ amountOf a.limit m.name) : ∃ r, accept as m = some r := by
  unfold accept
  rw [hl]
  dsimp only
  rw [if_neg (fun h => hc.receiver.elim h.1 h.2), if_neg (by rw [memoOk_iff.2 hc.memo]; exact fun x => nomatch x)]
  split
  · exact ⟨_, rfl⟩
  · cases hg : KV.get a.limit m.name with
    | none => unfold amountOf at hn; rw [hg] at hn; exact absurd hn (Nat.not_le.2 h0)
    | some n =>
      rw [amountOf_eq hg] at hn
      dsimp only
      rw [if_neg (by omega)]
      split
      · split
        · exact ⟨_, rfl⟩
        · exact ⟨_, rfl⟩
      · exact ⟨_, rfl⟩

theorem valid_wf {as : List Alloc} (h : validAllocs as = true) : WellFormed as := by
  unfold validAllocs at h
  obtain ⟨_, h1, h2⟩ := of_decide_eq_true h
  refine ⟨h1, fun a ha => ?_⟩
  have := (h2 a ha).1
  unfold validCoins at this
  obtain ⟨h3, h4⟩ := of_decide_eq_true this
  rw [top_eq] at h4
  exact ⟨h3.imp (fun hlt => Nat.ne_of_lt hlt), h4⟩

end Ics
