import Verif.EVM.StateDBLemmas3
/-!
# EVM state: simulation of the specification
-/
namespace EVM

variable {H : Bytes → Hash} {K : Store} {S : Bytes → Prop} {W : Prop}

/-- The revisions and the saved pictures belong together. -/
def Match (P : Nat → View → Prop) : List (Nat × Nat) → List (Nat × View) → Prop
  | [], [] => True
  | (i, n) :: r, (i', v) :: q => i = i' ∧ P n v ∧ Match P r q
  | _, _ => False

theorem Match.mono {P Q : Nat → View → Prop} {r q} (h : Match P r q) (hm : ∀ p ∈ r, ∀ v, P p.2 v → Q p.2 v) : Match Q r q := by
  induction r generalizing q with
  | nil => cases q <;> simp_all [Match]
  | cons p r ih =>
    obtain ⟨i, n⟩ := p
    cases q with
    | nil => exact h
    | cons p' q =>
      obtain ⟨i', v⟩ := p'
      exact ⟨h.1, hm (i, n) (by simp) v h.2.1, ih h.2.2 (fun p hp => hm p (by simp [hp]))⟩

theorem Match.ids {P : Nat → View → Prop} {r q} (h : Match P r q) : q.map (·.1) = r.map (·.1) := by
  induction r generalizing q with
  | nil => cases q <;> simp_all [Match]
  | cons p r ih =>
    obtain ⟨i, n⟩ := p
    cases q with
    | nil => exact h.elim
    | cons p' q => obtain ⟨i', v⟩ := p'; simp [ih h.2.2, h.1]

theorem Match.snoc {P : Nat → View → Prop} {r q} (h : Match P r q) {i n v} (hp : P n v) :
    Match P (r ++ [(i, n)]) (q ++ [(i, v)]) := by
  induction r generalizing q with
  | nil => cases q <;> simp_all [Match]
  | cons p r ih =>
    obtain ⟨i, n⟩ := p
    cases q with
    | nil => exact h.elim
    | cons p' q => obtain ⟨i', v⟩ := p'; exact ⟨h.1, h.2.1, ih h.2.2⟩

theorem Match.find {P : Nat → View → Prop} {r q} (h : Match P r q) (hs : r.Pairwise fun p p' => p.1 < p'.1 ∧ p.2 ≤ p'.2) (id : Nat) :
    (q.find? (fun p => p.1 == id) = none ∧ ∀ p, r[r.findIdx fun r => r.1 ≥ id]? = some p → p.1 ≠ id) ∨
    ∃ n v, q.find? (fun p => p.1 == id) = some (id, v) ∧ r[r.findIdx fun r => r.1 ≥ id]? = some (id, n) ∧ P n v ∧
      (∀ p ∈ r.take (r.findIdx fun r => r.1 ≥ id), p.2 ≤ n) ∧
      Match P (r.take (r.findIdx fun r => r.1 ≥ id)) (q.filter fun p => p.1 < id) := by
  induction r generalizing q with
  | nil =>
    cases q with
    | nil => exact .inl ⟨rfl, by simp⟩
    | cons p q => exact h.elim
  | cons p r ih =>
    obtain ⟨i, n⟩ := p
    cases q with
    | nil => exact h.elim
    | cons p' q =>
      obtain ⟨i', v⟩ := p'
      obtain ⟨rfl, hp, hm⟩ := h
      have hs' := List.pairwise_cons.1 hs
      have hgt : ∀ p ∈ q, i < p.1 := by
        intro p hp
        have : p.1 ∈ r.map (·.1) := by rw [← hm.ids]; exact List.mem_map_of_mem hp
        obtain ⟨p', h1, h2⟩ := List.mem_map.1 this
        rw [← h2]; exact (hs'.1 p' h1).1
      rcases Nat.lt_trichotomy i id with hlt | heq | hlt
      · have e : (((i, n) :: r).findIdx fun r => decide (r.1 ≥ id)) = (r.findIdx fun r => decide (r.1 ≥ id)) + 1 := by
          rw [List.findIdx_cons]; simp [Nat.not_le.2 hlt]
        have hne : ((i == id)) = false := by simp; omega
        rw [e]
        simp only [List.find?_cons, hne, List.getElem?_cons_succ, List.take_succ_cons]
        rcases ih hm hs'.2 with ⟨h1, h2⟩ | ⟨n', v', h1, h2, h3, h4, h5⟩
        · exact .inl ⟨h1, h2⟩
        · refine .inr ⟨n', v', h1, h2, h3, ?_, ?_⟩
          · intro p hp
            rcases List.mem_cons.1 hp with rfl | hp
            · exact (hs'.1 _ (List.mem_of_getElem? h2)).2
            · exact h4 p hp
          · rw [List.filter_cons_of_pos (by simpa using hlt)]
            exact ⟨rfl, hp, h5⟩
      · subst heq
        have e : (((i, n) :: r).findIdx fun r => decide (r.1 ≥ i)) = 0 := by
          rw [List.findIdx_cons]; simp
        rw [e]
        refine .inr ⟨n, v, by simp, by simp, hp, by simp, ?_⟩
        have : ((i, v) :: q).filter (fun p => decide (p.1 < i)) = [] := by
          apply List.filter_eq_nil_iff.2
          intro p hp
          rcases List.mem_cons.1 hp with rfl | hp
          · simp
          · have := hgt p hp; simp; omega
        rw [this]; trivial
      · have e : (((i, n) :: r).findIdx fun r => decide (r.1 ≥ id)) = 0 := by
          rw [List.findIdx_cons]; simp [Nat.le_of_lt hlt]
        rw [e]
        refine .inl ⟨?_, ?_⟩
        · apply List.find?_eq_none.2
          intro p hp
          rcases List.mem_cons.1 hp with rfl | hp
          · simp; omega
          · have := hgt p hp; simp; omega
        · intro p hp
          simp only [List.getElem?_cons_zero, Option.some.injEq] at hp
          subst hp; show i ≠ id; omega

/-- What is known about a revision with journal length `n` and saved picture `v`. -/
def Saved (H : Bytes → Hash) (K : Store) (s : SDB) (n : Nat) (v : View) : Prop :=
  n ≤ s.journal.length ∧ vundoN H K s.journal (s.view H K) (s.journal.length - n) = some v

/-- The simulation relation. -/
structure R (H : Bytes → Hash) (K : Store) (S : Bytes → Prop) (W : Prop) (s : SDB) (σ : Spec) : Prop where
  view : s.view H K = σ.cur
  inv : Inv H K S W s
  next : s.nextRev = σ.next
  lt : ∀ p ∈ s.revs, p.1 < s.nextRev
  sorted : s.revs.Pairwise fun p p' => p.1 < p'.1 ∧ p.2 ≤ p'.2
  saved : Match (Saved H K s) s.revs σ.saved

theorem view_init (K : Store) (li : Nat) : SDB.view H K { logIndex := li } = K.view H := by
  unfold SDB.view View.marks Store.view
  simp only [View.mk.injEq]
  refine ⟨?_, trivial, trivial, rfl, rfl, rfl, rfl⟩
  funext a
  simp only [SDB.lookup, Store.getObj, Store.acct, Option.map_map]
  cases K.seq a with
  | none => rfl
  | some n =>
    simp only [Option.map_some, Function.comp, objView, Obj.codeVal, Option.some.injEq, Acct.mk.injEq, true_and, and_true]
    refine ⟨?_, ?_⟩
    · split <;> rfl
    · funext k; rfl

theorem R.init (li : Nat) : R H K S W { logIndex := li } (Spec.init H K) where
  view := view_init K li
  inv := ⟨by intro a o h; simp at h, trivial, rfl, ⟨by simp, by intro a n; simp [touches]; omega⟩, by intro a h; simp [touches] at h⟩
  next := rfl
  lt := by simp
  sorted := by simp
  saved := trivial

theorem R.step (hW : W → WF H K S) {s : SDB} {σ : Spec} (h : R H K S W s σ) (op : Op) (hop : W → op.codeIn S) :
    (σ.step H K s.logIndex op = none ∧ s.step H K op = none) ∨
    ∃ s' σ' o, s.step H K op = some (s', o) ∧ σ.step H K s.logIndex op = some (σ', o) ∧ R H K S W s' σ' ∧ s'.logIndex = s.logIndex := by
  have main : ∀ op, (W → op.codeIn S) → op ≠ .snapshot → (∀ id, op ≠ .revert id) →
      (σ.step H K s.logIndex op = (σ.cur.step H K s.logIndex op).map fun (v, o) => ({ σ with cur := v }, o)) →
      (σ.step H K s.logIndex op = none ∧ s.step H K op = none) ∨
      ∃ s' σ' o, s.step H K op = some (s', o) ∧ σ.step H K s.logIndex op = some (σ', o) ∧ R H K S W s' σ' ∧ s'.logIndex = s.logIndex := by
    intro op hop h1 h2 he
    rw [he, ← h.view]
    rcases step_sim hW h.inv op hop h1 h2 with ⟨g1, g2⟩ | ⟨s', o, g1, g2, g3⟩
    · exact .inl ⟨by rw [g1]; rfl, g2⟩
    · refine .inr ⟨s', _, o, g1, by rw [g2]; rfl, ?_, g3.li⟩
      obtain ⟨es, e1, e2⟩ := g3.ext
      refine ⟨rfl, g3.inv, g3.next.trans h.next, ?_, ?_, ?_⟩
      · rw [g3.revs, g3.next]; exact h.lt
      · rw [g3.revs]; exact h.sorted
      · rw [g3.revs]
        refine h.saved.mono ?_
        rintro p - v ⟨k1, k2⟩
        have hl : s'.journal.length = es.length + s.journal.length := by rw [e1, List.length_append]
        refine ⟨by omega, ?_⟩
        rw [show s'.journal.length - p.2 = es.length + (s.journal.length - p.2) by omega, vundoN_add, e2]
        simp only [Option.bind_some]
        rw [e1, List.drop_append_of_le_length (Nat.le_refl _), List.drop_length, List.nil_append]
        exact k2
  cases op with
  | snapshot =>
    refine .inr ⟨_, _, _, rfl, by rw [h.next]; rfl, ?_, rfl⟩
    refine ⟨h.view, ⟨h.inv.objs, h.inv.journal, h.inv.al, h.inv.dirties, h.inv.live⟩, by simp only [h.next], ?_, ?_, ?_⟩
    · intro p hp
      simp only at *
      rcases List.mem_append.1 hp with hp | hp
      · have := h.lt p hp; omega
      · simp only [List.mem_singleton] at hp; subst hp; simp
    · simp only
      refine List.pairwise_append.2 ⟨h.sorted, by simp, ?_⟩
      intro p hp p' hp'
      simp only [List.mem_singleton] at hp'
      subst hp'
      refine ⟨h.lt p hp, ?_⟩
      show p.2 ≤ s.journal.length
      have : ∀ r q, Match (Saved H K s) r q → ∀ p ∈ r, p.2 ≤ s.journal.length := by
        intro r
        induction r with
        | nil => simp
        | cons a r ih =>
          obtain ⟨i, n⟩ := a
          intro q hm p hp
          cases q with
          | nil => exact hm.elim
          | cons b q =>
            rcases List.mem_cons.1 hp with rfl | hp
            · exact hm.2.1.1
            · exact ih q hm.2.2 p hp
      exact this _ _ h.saved p hp
    · simp only
      rw [← h.next, ← h.view]
      exact Match.snoc (P := Saved H K s) h.saved ⟨Nat.le_refl _, by simp [vundoN]⟩
  | revert id =>
    rcases h.saved.find h.sorted id with ⟨g1, g2⟩ | ⟨n, v, g1, g2, ⟨g3, g3'⟩, g4, g5⟩
    · refine .inl ⟨by simp only [Spec.step, g1], ?_⟩
      simp only [SDB.step, SDB.revertTo]
      split
      · rfl
      · rename_i r hr
        rw [if_pos (g2 r hr)]; rfl
    · obtain ⟨t, t1, t2, t3, t4, t5⟩ := undoN_sim hW _ h.inv g3'
      refine .inr ⟨{ t with revs := s.revs.take (s.revs.findIdx fun r => r.1 ≥ id) }, _, .done, ?_, by simp only [Spec.step, g1]; rfl, ?_, t4.li⟩
      · simp only [SDB.step, SDB.revertTo, g2, t1, ne_eq, not_true, if_false, Option.map_some]
      · refine ⟨t2, ⟨t3.objs, t3.journal, t3.al, t3.dirties, t3.live⟩, t4.next.trans h.next, ?_, ?_, ?_⟩
        · intro p hp
          rw [show SDB.nextRev _ = t.nextRev from rfl, t4.next]
          exact h.lt p (List.mem_of_mem_take hp)
        · exact h.sorted.sublist (List.take_sublist _ _)
        · refine g5.mono ?_
          rintro p hp v' ⟨k1, k2⟩
          have hle := g4 p hp
          have hl : t.journal.length = n := by rw [t5, List.length_drop]; omega
          refine ⟨by show p.2 ≤ t.journal.length; omega, ?_⟩
          show vundoN H K t.journal (t.view H K) (t.journal.length - p.2) = some v'
          rw [show s.journal.length - p.2 = (s.journal.length - n) + (n - p.2) by omega, vundoN_add, g3'] at k2
          rw [hl, t2, t5]
          exact k2
  | _ => exact main _ hop (by simp) (by simp) rfl

/-- Any sequence of operations. -/
theorem R.run (hW : W → WF H K S) (ops : List Op) {s : SDB} {σ : Spec} (h : R H K S W s σ) (hop : W → ∀ op ∈ ops, op.codeIn S) :
    (σ.run H K s.logIndex ops = none ∧ s.run H K ops = none) ∨
    ∃ s' σ' os, s.run H K ops = some (s', os) ∧ σ.run H K s.logIndex ops = some (σ', os) ∧ R H K S W s' σ' ∧ s'.logIndex = s.logIndex := by
  induction ops generalizing s σ with
  | nil => exact .inr ⟨s, σ, [], rfl, rfl, h, rfl⟩
  | cons op ops ih =>
    rcases h.step hW op (fun w => hop w op (by simp)) with ⟨g1, g2⟩ | ⟨s', σ', o, g1, g2, g3, g4⟩
    · exact .inl ⟨by simp only [Spec.run, g1, Option.bind_none], by simp only [SDB.run, g2, Option.bind_none]⟩
    · simp only [Spec.run, SDB.run, g1, g2, Option.bind_some]
      rcases ih g3 (fun w op h => hop w op (by simp [h])) with ⟨k1, k2⟩ | ⟨s'', σ'', os, k1, k2, k3, k4⟩
      · rw [g4] at k1; exact .inl ⟨by rw [k1]; rfl, by rw [k2]; rfl⟩
      · rw [g4] at k2 k4
        exact .inr ⟨s'', σ'', o :: os, by rw [k1]; rfl, by rw [k2]; rfl, k3, k4⟩

end EVM
