import Verif.EVM.PrecompileSpec

/-!
# Helper lemmas on calls of precompiled contracts
-/
namespace PC

variable {X : Type}

theorem upd_same {α : Type} (f : Nat → α) (a : Nat) (v : α) : upd f a v a = v := by simp [upd]
theorem upd_ne {α : Type} (f : Nat → α) {a b : Nat} (v : α) (h : b ≠ a) : upd f a v b = f b := by simp [upd, h]
theorem upd_upd {α : Type} (f : Nat → α) (a : Nat) (v w : α) : upd (upd f a v) a w = upd f a w := by
  funext b; unfold upd; split <;> rfl
theorem upd_eq {α : Type} (f : Nat → α) (a : Nat) (v : α) (h : f a = v) : upd f a v = f := by
  funext b; unfold upd; split
  · next e => rw [e, h]
  · rfl

theorem Full.same {F G : Full X} (h1 : F.exist = G.exist) (h2 : F.bal = G.bal) (h3 : F.state = G.state) (h4 : F.rest = G.rest) : F = G := by
  cases F; cases G; simp only at h1 h2 h3 h4; rw [h1, h2, h3, h4]

/-- The accounts changed by journal entries. -/
abbrev dirt (j : List (Entry X)) : List Addr := j.filterMap Entry.dirtied

/-- The value before an entry. -/
def undoV (C : Full X) (v : Full X) : Entry X → Full X
  | .create a => { v with exist := upd v.exist a (C.exist a), bal := upd v.bal a (C.bal a), state := upd v.state a (C.state a) }
  | .balance a p => { v with bal := upd v.bal a p }
  | .storage a k p => { v with state := upd v.state a (upd (v.state a) k p) }
  | .precompile L => { v with rest := (L C).rest }

def Agree (C v : Full X) (a : Addr) : Prop := v.exist a = C.exist a ∧ v.bal a = C.bal a ∧ v.state a = C.state a

/-- Accounts and slots without an entry are as in the store. -/
def Near (C v : Full X) (j : List (Entry X)) : Prop :=
  (∀ a, a ∉ dirt j → Agree C v a) ∧ (∀ a k, (∀ p, Entry.storage a k p ∉ j) → v.state a k = C.state a k)

def Views (C : Full X) : Full X → List (Entry X) → Prop
  | v, [] => Near C v []
  | v, e :: j => Near C v (e :: j) ∧ Views C (undoV C v e) j

def Layers (C : Full X) : Layer X → List (Entry X) → Prop
  | L, [] => Near C (L C) []
  | L, e :: j => match e with
    | .precompile L' => Near C (L C) j ∧ Layers C L' j
    | _ => Layers C L j

def JOk : List (Entry X) → Prop
  | [] => True
  | e :: j => (∀ a, e = .create a → a ∉ dirt j) ∧ JOk j

theorem Near.mono {C v : Full X} {j j' : List (Entry X)} (h : Near C v j) (hs : ∀ e, e ∈ j → e ∈ j') : Near C v j' := by
  refine ⟨fun a ha => h.1 a fun hm => ha ?_, fun a k hk => h.2 a k fun p hp => hk p (hs _ hp)⟩
  rw [List.mem_filterMap] at hm ⊢
  obtain ⟨e, he, hd⟩ := hm
  exact ⟨e, hs e he, hd⟩

theorem Views.near {C v : Full X} {j : List (Entry X)} (h : Views C v j) : Near C v j := by
  cases j with
  | nil => exact h
  | cons e j => exact h.1

theorem Layers.near {C : Full X} : ∀ {L : Layer X} {j : List (Entry X)}, Layers C L j → Near C (L C) j
  | _, [], h => h
  | _, e :: j, h => by
    cases e with
    | precompile L' => exact h.1.mono fun _ => List.mem_cons_of_mem _
    | create a => exact (Layers.near (j := j) h).mono fun _ => List.mem_cons_of_mem _
    | balance a p => exact (Layers.near (j := j) h).mono fun _ => List.mem_cons_of_mem _
    | storage a k p => exact (Layers.near (j := j) h).mono fun _ => List.mem_cons_of_mem _

/-- The state of the code shows the value `v`. -/
structure Core (s : SDB X) (v : Full X) : Prop where
  obj : ∀ a o, s.objs a = some o → v.exist a = true ∧ o.balance = v.bal a ∧ (∀ k, (o.dirty k).getD (s.ctx.state a k) = v.state a k) ∧
    ∀ k w, o.origin k = some w → w = s.ctx.state a k
  absent : ∀ a, s.objs a = none → Agree s.ctx v a
  present : ∀ a, a ∈ dirt s.journal → ∃ o, s.objs a = some o
  slot : ∀ a k p, Entry.storage a k p ∈ s.journal → ∃ o, s.objs a = some o ∧ o.dirty k ≠ none
  views : Views s.ctx v s.journal
  layers : Layers s.ctx (s.cache.getD id) s.journal
  jok : JOk s.journal
  rest : ((s.cache.getD id) s.ctx).rest = v.rest

/-- Accounts that do not exist have no coins. -/
def Full.WF (C : Full X) : Prop := ∀ a, C.exist a = false → C.bal a = 0

theorem mem_dirt_of_storage {a : Addr} {k : Key} {p : Word} {j : List (Entry X)} (h : Entry.storage a k p ∈ j) : a ∈ dirt j := by
  rw [List.mem_filterMap]; exact ⟨_, h, rfl⟩

theorem Core.init (C : Full X) : Core ({ ctx := C } : SDB X) C where
  obj := fun a o h => (nomatch h)
  absent := fun a _ => ⟨rfl, rfl, rfl⟩
  present := fun a h => (nomatch h)
  slot := fun a k p h => (nomatch h)
  views := ⟨fun a _ => ⟨rfl, rfl, rfl⟩, fun _ _ _ => rfl⟩
  layers := ⟨fun a _ => ⟨rfl, rfl, rfl⟩, fun _ _ _ => rfl⟩
  jok := trivial
  rest := rfl

/-- What is written into the cached layer is the value. -/
theorem Core.write {s : SDB X} {v : Full X} (h : Core s v) : s.write ((s.cache.getD id) s.ctx) = v := by
  have hl := h.layers.near
  have hv := h.views.near
  have e1 : (fun a => ((s.cache.getD id) s.ctx).exist a || decide (a ∈ s.dirties)) = v.exist := by
    funext a
    by_cases ha : a ∈ s.dirties
    · obtain ⟨o, ho⟩ := h.present a ha
      rw [(h.obj a o ho).1]; simp [ha]
    · rw [(hl.1 a ha).1, (hv.1 a ha).1]; simp [ha]
  have e2 : (fun a => if a ∈ s.dirties then (match s.objs a with | some o => o.balance | none => ((s.cache.getD id) s.ctx).bal a)
      else ((s.cache.getD id) s.ctx).bal a) = v.bal := by
    funext a
    by_cases ha : a ∈ s.dirties
    · obtain ⟨o, ho⟩ := h.present a ha
      rw [if_pos ha, ho]; exact (h.obj a o ho).2.1
    · rw [if_neg ha, (hl.1 a ha).2.1, (hv.1 a ha).2.1]
  have e3 : (fun a k => if a ∈ s.dirties then (match s.objs a with
      | some o => (o.dirty k).getD (((s.cache.getD id) s.ctx).state a k)
      | none => ((s.cache.getD id) s.ctx).state a k) else ((s.cache.getD id) s.ctx).state a k) = v.state := by
    funext a k
    by_cases ha : a ∈ s.dirties
    · obtain ⟨o, ho⟩ := h.present a ha
      rw [if_pos ha, ho]
      show (o.dirty k).getD _ = _
      have h3 := (h.obj a o ho).2.2.1 k
      cases hd : o.dirty k with
      | some w => rw [hd] at h3; exact h3
      | none =>
        rw [hd] at h3
        rw [← h3]
        refine hl.2 a k fun p hp => ?_
        obtain ⟨o', ho', hn⟩ := h.slot a k p hp
        rw [ho] at ho'
        cases ho'
        exact hn hd
    · rw [if_neg ha, (hl.1 a ha).2.2, (hv.1 a ha).2.2]
  exact Full.same e1 e2 e3 h.rest

theorem Core.exist {s : SDB X} {v : Full X} (h : Core s v) (a : Addr) : (s.lookup a).isSome = v.exist a := by
  unfold SDB.lookup
  cases ho : s.objs a with
  | some o => exact ((h.obj a o ho).1).symm
  | none =>
    rw [(h.absent a ho).1]
    show (s.fetch a).isSome = _
    unfold SDB.fetch
    cases s.ctx.exist a <;> rfl

/-- An object found, whether loaded or not. -/
theorem Core.found {s : SDB X} {v : Full X} (h : Core s v) {a : Addr} {o : Obj} (hf : s.lookup a = some o) :
    v.exist a = true ∧ o.balance = v.bal a ∧ (∀ k, (o.dirty k).getD (s.ctx.state a k) = v.state a k) ∧
    (∀ k w, o.origin k = some w → w = s.ctx.state a k) ∧ (s.objs a = some o ∨ s.objs a = none ∧ ∀ k, o.dirty k = none) := by
  unfold SDB.lookup at hf
  cases ho : s.objs a with
  | some o' =>
    rw [ho] at hf
    cases hf
    obtain ⟨h1, h2, h3, h4⟩ := h.obj a o ho
    exact ⟨h1, h2, h3, h4, Or.inl rfl⟩
  | none =>
    rw [ho] at hf
    obtain ⟨g1, g2, g3⟩ := h.absent a ho
    unfold SDB.fetch at hf
    by_cases hx : s.ctx.exist a = true
    · rw [if_pos hx] at hf
      cases hf
      refine ⟨g1.trans hx, g2.symm, fun k => ?_, fun k w hw => (nomatch hw), Or.inr ⟨rfl, fun _ => rfl⟩⟩
      rw [g3]; rfl
    · rw [if_neg hx] at hf
      exact (nomatch hf)

/-- Objects may be replaced by ones that show the same. -/
theorem Core.keep {s : SDB X} {v : Full X} (h : Core s v) {a : Addr} {o o' : Obj} (hf : s.lookup a = some o) (hb : o'.balance = o.balance)
    (hd : o'.dirty = o.dirty) (ho : ∀ k w, o'.origin k = some w → w = s.ctx.state a k) : Core (s.put a o') v := by
  obtain ⟨f1, f2, f3, f4, f5⟩ := h.found hf
  refine ⟨?_, ?_, ?_, ?_, h.views, h.layers, h.jok, h.rest⟩
  · intro b q hq
    by_cases hba : b = a
    · subst hba
      have : some o' = some q := (upd_same s.objs b (some o')).symm.trans hq
      cases this
      exact ⟨f1, hb.trans f2, by rw [hd]; exact f3, ho⟩
    · exact h.obj b q ((upd_ne s.objs (some o') hba).symm.trans hq)
  · intro b hq
    by_cases hba : b = a
    · subst hba
      have : some o' = none := (upd_same s.objs b (some o')).symm.trans hq
      exact (nomatch this)
    · exact h.absent b ((upd_ne s.objs (some o') hba).symm.trans hq)
  · intro b hm
    by_cases hba : b = a
    · subst hba; exact ⟨o', upd_same _ _ _⟩
    · obtain ⟨q, hq⟩ := h.present b hm
      exact ⟨q, (upd_ne s.objs (some o') hba).trans hq⟩
  · intro b k p hm
    obtain ⟨q, hq, hn⟩ := h.slot b k p hm
    by_cases hba : b = a
    · subst hba
      refine ⟨o', upd_same _ _ _, ?_⟩
      have : some o = some q := hf.symm.trans (by unfold SDB.lookup; rw [hq])
      cases this
      rw [hd]; exact hn
    · exact ⟨q, (upd_ne s.objs (some o') hba).trans hq, hn⟩

theorem Core.load {s : SDB X} {v : Full X} (h : Core s v) (a : Addr) : Core (s.load a) v := by
  unfold SDB.load
  cases ho : s.objs a with
  | some o => exact h
  | none =>
    cases hf : s.fetch a with
    | none =>
      have : ({ s with objs := upd s.objs a none } : SDB X) = s := by rw [upd_eq _ _ _ ho]
      rw [this]; exact h
    | some o =>
      have hl : s.lookup a = some o := by unfold SDB.lookup; rw [ho]; exact hf
      exact h.keep hl rfl rfl (h.found hl).2.2.2.1

/-- A new entry, with what it changes. -/
theorem Core.push {s : SDB X} {v : Full X} (h : Core s v) {a : Addr} {o : Obj} {e : Entry X} {w : Full X}
    (hw : undoV s.ctx w e = v) (hea : e.dirtied = some a) (hother : ∀ b, b ≠ a → w.exist b = v.exist b ∧ w.bal b = v.bal b ∧ w.state b = v.state b)
    (hslot : ∀ k, (∀ p, e ≠ .storage a k p) → (∀ p, Entry.storage a k p ∉ s.journal) → w.state a k = s.ctx.state a k)
    (hstor : ∀ b k p, e = .storage b k p → b = a ∧ o.dirty k ≠ none)
    (hold : ∀ q, s.objs a = some q → ∀ k, q.dirty k ≠ none → o.dirty k ≠ none)
    (hc : ∀ b, e = .create b → b ∉ dirt s.journal)
    (hobj : w.exist a = true ∧ o.balance = w.bal a ∧ (∀ k, (o.dirty k).getD (s.ctx.state a k) = w.state a k) ∧ ∀ k u, o.origin k = some u → u = s.ctx.state a k)
    (hrest : w.rest = v.rest) : Core ((s.append e).put a o) w := by
  have hnp : ∀ L, e ≠ .precompile L := fun L hL => by rw [hL] at hea; exact (nomatch hea)
  refine ⟨?_, ?_, ?_, ?_, ?_, ?_, ⟨hc, h.jok⟩, h.rest.trans hrest.symm⟩
  · intro b q hq
    by_cases hba : b = a
    · subst hba
      have : some o = some q := (upd_same s.objs b (some o)).symm.trans hq
      cases this
      exact hobj
    · obtain ⟨g1, g2, g3, g4⟩ := h.obj b q ((upd_ne s.objs (some o) hba).symm.trans hq)
      obtain ⟨w1, w2, w3⟩ := hother b hba
      exact ⟨w1.trans g1, g2.trans w2.symm, by rw [w3]; exact g3, g4⟩
  · intro b hq
    by_cases hba : b = a
    · subst hba
      have : some o = none := (upd_same s.objs b (some o)).symm.trans hq
      exact (nomatch this)
    · obtain ⟨g1, g2, g3⟩ := h.absent b ((upd_ne s.objs (some o) hba).symm.trans hq)
      obtain ⟨w1, w2, w3⟩ := hother b hba
      exact ⟨w1.trans g1, w2.trans g2, w3.trans g3⟩
  · intro b hm
    by_cases hba : b = a
    · subst hba; exact ⟨o, upd_same _ _ _⟩
    · have hm' : b ∈ dirt s.journal := by
        have : b ∈ dirt (e :: s.journal) := hm
        rw [show dirt (e :: s.journal) = a :: dirt s.journal from by simp [dirt, List.filterMap_cons, hea]] at this
        exact (List.mem_cons.mp this).resolve_left hba
      obtain ⟨q, hq⟩ := h.present b hm'
      exact ⟨q, (upd_ne s.objs (some o) hba).trans hq⟩
  · intro b k p hm
    rcases List.mem_cons.mp hm with rfl | hm
    · obtain ⟨rfl, hd⟩ := hstor _ k p rfl
      exact ⟨o, upd_same _ _ _, hd⟩
    · obtain ⟨q, hq, hn⟩ := h.slot b k p hm
      by_cases hba : b = a
      · subst hba
        exact ⟨o, upd_same _ _ _, hold q hq k hn⟩
      · exact ⟨q, (upd_ne s.objs (some o) hba).trans hq, hn⟩
  · refine ⟨⟨?_, ?_⟩, ?_⟩
    · intro b hb
      have hd : dirt (e :: s.journal) = a :: dirt s.journal := by simp [dirt, List.filterMap_cons, hea]
      rw [hd] at hb
      have hba : b ≠ a := fun hx => hb (by rw [hx]; exact List.mem_cons_self)
      obtain ⟨g1, g2, g3⟩ := h.views.near.1 b fun hm => hb (List.mem_cons_of_mem _ hm)
      obtain ⟨w1, w2, w3⟩ := hother b hba
      exact ⟨w1.trans g1, w2.trans g2, w3.trans g3⟩
    · intro b k hk
      by_cases hba : b = a
      · subst hba
        exact hslot k (fun p hp => hk p (by rw [hp]; exact List.mem_cons_self)) fun p hp => hk p (List.mem_cons_of_mem _ hp)
      · rw [(hother b hba).2.2]
        exact h.views.near.2 b k fun p hp => hk p (List.mem_cons_of_mem _ hp)
    · show Views s.ctx (undoV s.ctx w e) s.journal
      rw [hw]; exact h.views
  · show Layers s.ctx (s.cache.getD id) (e :: s.journal)
    cases e with
    | precompile L => exact absurd rfl (hnp L)
    | create a => exact h.layers
    | balance a p => exact h.layers
    | storage a k p => exact h.layers

/-- Undoing the newest entry. -/
theorem Core.undo {s : SDB X} {v : Full X} (h : Core s v) {e : Entry X} {j : List (Entry X)} (hj : s.journal = e :: j) :
    Core ({ s.undo e with journal := j } : SDB X) (undoV s.ctx v e) := by
  have hvj : Views s.ctx (undoV s.ctx v e) j := by
    have := h.views; rw [hj] at this; exact this.2
  have hjo : JOk j := by have := h.jok; rw [hj] at this; exact this.2
  have hsub : ∀ b, b ∈ dirt j → b ∈ dirt s.journal := fun b hb => by
    rw [hj]
    rw [List.mem_filterMap] at hb ⊢
    obtain ⟨x, hx, hd⟩ := hb
    exact ⟨x, List.mem_cons_of_mem _ hx, hd⟩
  have hsl : ∀ b k p, Entry.storage b k p ∈ j → Entry.storage b k p ∈ s.journal := fun b k p hb => by
    rw [hj]; exact List.mem_cons_of_mem _ hb
  cases e with
  | precompile L =>
    have hl : Layers s.ctx L j := by have := h.layers; rw [hj] at this; exact this.2
    exact ⟨h.obj, h.absent, fun a ha => h.present a (hsub a ha), fun a k p hp => h.slot a k p (hsl a k p hp), hvj, hl, hjo, rfl⟩
  | create a =>
    have hl : Layers s.ctx (s.cache.getD id) j := by have := h.layers; rw [hj] at this; exact this
    have hna : a ∉ dirt j := by have := h.jok; rw [hj] at this; exact this.1 a rfl
    refine ⟨?_, ?_, ?_, ?_, hvj, hl, hjo, h.rest⟩
    · intro b q hq
      by_cases hba : b = a
      · subst hba
        have : (none : Option Obj) = some q := (upd_same s.objs b none).symm.trans hq
        exact (nomatch this)
      · obtain ⟨g1, g2, g3, g4⟩ := h.obj b q ((upd_ne s.objs none hba).symm.trans hq)
        refine ⟨(upd_ne _ _ hba).trans g1, g2.trans (upd_ne _ _ hba).symm, fun k => ?_, g4⟩
        show _ = upd v.state a _ b k
        rw [upd_ne _ _ hba]; exact g3 k
    · intro b hq
      by_cases hba : b = a
      · subst hba
        exact ⟨upd_same _ _ _, upd_same _ _ _, upd_same _ _ _⟩
      · obtain ⟨g1, g2, g3⟩ := h.absent b ((upd_ne s.objs none hba).symm.trans hq)
        exact ⟨(upd_ne _ _ hba).trans g1, (upd_ne _ _ hba).trans g2, (upd_ne _ _ hba).trans g3⟩
    · intro b hb
      obtain ⟨q, hq⟩ := h.present b (hsub b hb)
      have hba : b ≠ a := fun hx => hna (hx ▸ hb)
      exact ⟨q, (upd_ne _ _ hba).trans hq⟩
    · intro b k p hp
      obtain ⟨q, hq, hn⟩ := h.slot b k p (hsl b k p hp)
      have hba : b ≠ a := fun hx => hna (hx ▸ mem_dirt_of_storage hp)
      exact ⟨q, (upd_ne _ _ hba).trans hq, hn⟩
  | balance a p0 =>
    have hl : Layers s.ctx (s.cache.getD id) j := by have := h.layers; rw [hj] at this; exact this
    obtain ⟨o, ho⟩ := h.present a (by rw [hj]; simp [dirt, List.filterMap_cons, Entry.dirtied])
    have hlk : s.lookup a = some o := by unfold SDB.lookup; rw [ho]
    have hu : s.undo (.balance a p0) = s.put a { o with balance := p0 } := by unfold SDB.undo; simp only; rw [hlk]
    rw [hu]
    refine ⟨?_, ?_, ?_, ?_, hvj, hl, hjo, h.rest⟩
    · intro b q hq
      by_cases hba : b = a
      · subst hba
        have : some { o with balance := p0 } = some q := (upd_same s.objs b _).symm.trans hq
        cases this
        obtain ⟨g1, g2, g3, g4⟩ := h.obj b o ho
        exact ⟨g1, (upd_same _ _ _).symm, g3, g4⟩
      · obtain ⟨g1, g2, g3, g4⟩ := h.obj b q ((upd_ne s.objs _ hba).symm.trans hq)
        exact ⟨g1, g2.trans (upd_ne _ _ hba).symm, g3, g4⟩
    · intro b hq
      by_cases hba : b = a
      · subst hba
        have : some { o with balance := p0 } = none := (upd_same s.objs b _).symm.trans hq
        exact (nomatch this)
      · obtain ⟨g1, g2, g3⟩ := h.absent b ((upd_ne s.objs _ hba).symm.trans hq)
        exact ⟨g1, (upd_ne _ _ hba).trans g2, g3⟩
    · intro b hb
      by_cases hba : b = a
      · subst hba; exact ⟨_, upd_same _ _ _⟩
      · obtain ⟨q, hq⟩ := h.present b (hsub b hb)
        exact ⟨q, (upd_ne _ _ hba).trans hq⟩
    · intro b k p hp
      obtain ⟨q, hq, hn⟩ := h.slot b k p (hsl b k p hp)
      by_cases hba : b = a
      · subst hba
        have : some o = some q := ho.symm.trans hq
        cases this
        exact ⟨_, upd_same _ _ _, hn⟩
      · exact ⟨q, (upd_ne _ _ hba).trans hq, hn⟩
  | storage a k0 p0 =>
    have hl : Layers s.ctx (s.cache.getD id) j := by have := h.layers; rw [hj] at this; exact this
    obtain ⟨o, ho⟩ := h.present a (by rw [hj]; simp [dirt, List.filterMap_cons, Entry.dirtied])
    have hlk : s.lookup a = some o := by unfold SDB.lookup; rw [ho]
    have hu : s.undo (.storage a k0 p0) = s.put a { o with dirty := upd o.dirty k0 (some p0) } := by unfold SDB.undo; simp only; rw [hlk]
    rw [hu]
    refine ⟨?_, ?_, ?_, ?_, hvj, hl, hjo, h.rest⟩
    · intro b q hq
      by_cases hba : b = a
      · subst hba
        have : some { o with dirty := upd o.dirty k0 (some p0) } = some q := (upd_same s.objs b _).symm.trans hq
        cases this
        obtain ⟨g1, g2, g3, g4⟩ := h.obj b o ho
        refine ⟨g1, g2, fun k => ?_, g4⟩
        show (upd o.dirty k0 (some p0) k).getD _ = upd v.state b (upd (v.state b) k0 p0) b k
        rw [upd_same]
        by_cases hk : k = k0
        · subst hk; rw [upd_same, upd_same]; rfl
        · rw [upd_ne _ _ hk, upd_ne _ _ hk]; exact g3 k
      · obtain ⟨g1, g2, g3, g4⟩ := h.obj b q ((upd_ne s.objs _ hba).symm.trans hq)
        refine ⟨g1, g2, fun k => ?_, g4⟩
        show _ = upd v.state a _ b k
        rw [upd_ne _ _ hba]; exact g3 k
    · intro b hq
      by_cases hba : b = a
      · subst hba
        have : some { o with dirty := upd o.dirty k0 (some p0) } = none := (upd_same s.objs b _).symm.trans hq
        exact (nomatch this)
      · obtain ⟨g1, g2, g3⟩ := h.absent b ((upd_ne s.objs _ hba).symm.trans hq)
        exact ⟨g1, g2, (upd_ne _ _ hba).trans g3⟩
    · intro b hb
      by_cases hba : b = a
      · subst hba; exact ⟨_, upd_same _ _ _⟩
      · obtain ⟨q, hq⟩ := h.present b (hsub b hb)
        exact ⟨q, (upd_ne _ _ hba).trans hq⟩
    · intro b k p hp
      obtain ⟨q, hq, hn⟩ := h.slot b k p (hsl b k p hp)
      by_cases hba : b = a
      · subst hba
        have : some o = some q := ho.symm.trans hq
        cases this
        refine ⟨_, upd_same _ _ _, ?_⟩
        show upd o.dirty k0 (some p0) k ≠ none
        by_cases hk : k = k0
        · subst hk; rw [upd_same]; exact fun hx => (nomatch hx)
        · rw [upd_ne _ _ hk]; exact hn
      · exact ⟨q, (upd_ne _ _ hba).trans hq, hn⟩

theorem undo_frame (s : SDB X) (e : Entry X) : (s.undo e).ctx = s.ctx ∧ (s.undo e).revs = s.revs ∧ (s.undo e).nextRev = s.nextRev := by
  cases e with
  | create a => exact ⟨rfl, rfl, rfl⟩
  | precompile L => exact ⟨rfl, rfl, rfl⟩
  | balance a p => simp only [SDB.undo]; split <;> exact ⟨rfl, rfl, rfl⟩
  | storage a k p => simp only [SDB.undo]; split <;> exact ⟨rfl, rfl, rfl⟩

/-- The value before the newest `n` entries. -/
def undoVs (C : Full X) (v : Full X) (j : List (Entry X)) (n : Nat) : Full X := (j.take n).foldl (undoV C) v

theorem Core.undoN : ∀ (n : Nat) {s : SDB X} {v : Full X}, Core s v → Core (s.undoN n) (undoVs s.ctx v s.journal n) ∧
    (s.undoN n).ctx = s.ctx ∧ (s.undoN n).revs = s.revs ∧ (s.undoN n).nextRev = s.nextRev ∧ (s.undoN n).journal = s.journal.drop n
  | 0, s, v, h => ⟨by simpa [SDB.undoN, undoVs] using h, rfl, rfl, rfl, rfl⟩
  | n + 1, s, v, h => by
    cases hj : s.journal with
    | nil =>
      have : s.undoN (n + 1) = s := by simp only [SDB.undoN]; rw [hj]
      rw [this]
      exact ⟨h, rfl, rfl, rfl, hj⟩
    | cons e j =>
      have e1 : s.undoN (n + 1) = SDB.undoN { s.undo e with journal := j } n := by simp only [SDB.undoN]; rw [hj]
      obtain ⟨f1, f2, f3⟩ := undo_frame s e
      obtain ⟨i1, i2, i3, i4, i5⟩ := Core.undoN n (h.undo hj)
      rw [e1]
      refine ⟨?_, i2.trans f1, i3.trans f2, i4.trans f3, i5⟩
      have : undoVs s.ctx v (e :: j) (n + 1) = undoVs s.ctx (undoV s.ctx v e) j n := rfl
      rw [this, show undoVs s.ctx (undoV s.ctx v e) j n = undoVs (s.undo e).ctx (undoV s.ctx v e) j n from by rw [f1]]
      exact i1

end PC
