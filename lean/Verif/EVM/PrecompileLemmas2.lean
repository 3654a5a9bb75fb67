import Verif.EVM.PrecompileLemmas

/-!
# Helper lemmas on calls of precompiled contracts: operations
-/
namespace PC

variable {X : Type}

/-- The state of the code shows the value `v`, and would show the values in `T` after going back. -/
structure Inv (s : SDB X) (v : Full X) (T : List (Nat × Nat × Full X)) : Prop where
  core : Core s v
  revs : s.revs = T.map (fun t => (t.1, t.2.1))
  ord : T.Pairwise (fun t u => t.1 < u.1 ∧ t.2.1 ≤ u.2.1)
  bound : ∀ t ∈ T, t.1 < s.nextRev ∧ t.2.1 ≤ s.journal.length ∧ undoVs s.ctx v s.journal (s.journal.length - t.2.1) = t.2.2

/-- What an operation on accounts leaves alone. -/
structure Frame (s s' : SDB X) : Prop where
  ctx : s'.ctx = s.ctx
  cache : s'.cache = s.cache
  revs : s'.revs = s.revs
  next : s'.nextRev = s.nextRev
  calls : s'.calls = s.calls
  sub : ∀ e, e ∈ s.journal → e ∈ s'.journal

theorem Frame.refl (s : SDB X) : Frame s s := ⟨rfl, rfl, rfl, rfl, rfl, fun _ h => h⟩

theorem Frame.trans {s t u : SDB X} (h : Frame s t) (g : Frame t u) : Frame s u :=
  ⟨g.ctx.trans h.ctx, g.cache.trans h.cache, g.revs.trans h.revs, g.next.trans h.next, g.calls.trans h.calls, fun e he => g.sub e (h.sub e he)⟩

theorem Inv.same {s s' : SDB X} {v : Full X} {T : List (Nat × Nat × Full X)} (h : Inv s v T) (hc : Core s' v) (h1 : s'.ctx = s.ctx)
    (h2 : s'.journal = s.journal) (h3 : s'.revs = s.revs) (h4 : s'.nextRev = s.nextRev) : Inv s' v T :=
  ⟨hc, h3.trans h.revs, h.ord, fun t ht => by rw [h1, h2, h4]; exact h.bound t ht⟩

theorem Inv.push {s s' : SDB X} {v w : Full X} {T : List (Nat × Nat × Full X)} {e : Entry X} (h : Inv s v T) (hc : Core s' w) (h1 : s'.ctx = s.ctx)
    (h2 : s'.journal = e :: s.journal) (h3 : s'.revs = s.revs) (h4 : s'.nextRev = s.nextRev) (hw : undoV s.ctx w e = v) : Inv s' w T := by
  refine ⟨hc, h3.trans h.revs, h.ord, fun t ht => ?_⟩
  obtain ⟨b1, b2, b3⟩ := h.bound t ht
  rw [h1, h2, h4]
  refine ⟨b1, Nat.le_succ_of_le b2, ?_⟩
  have : (e :: s.journal).length - t.2.1 = (s.journal.length - t.2.1) + 1 := by simp only [List.length_cons]; omega
  rw [this, ← b3]
  show undoVs s.ctx (undoV s.ctx w e) s.journal _ = _
  rw [hw]

theorem objs_load {s : SDB X} {a : Addr} {o : Obj} (hl : s.lookup a = some o) : (s.load a).objs a = some o := by
  unfold SDB.lookup at hl
  unfold SDB.load
  cases ho : s.objs a with
  | some q => rw [ho] at hl; exact ho.trans hl
  | none => rw [ho] at hl; exact (upd_same _ _ _).trans hl

theorem load_frame (s : SDB X) (a : Addr) : Frame s (s.load a) ∧ (s.load a).journal = s.journal := by
  unfold SDB.load
  split
  · exact ⟨Frame.refl s, rfl⟩
  · exact ⟨⟨rfl, rfl, rfl, rfl, rfl, fun _ h => h⟩, rfl⟩

theorem lookup_none {s : SDB X} {a : Addr} (hl : s.lookup a = none) : s.objs a = none ∧ s.ctx.exist a = false := by
  unfold SDB.lookup at hl
  cases ho : s.objs a with
  | some q => rw [ho] at hl; exact (nomatch hl)
  | none =>
    rw [ho] at hl
    refine ⟨rfl, ?_⟩
    replace hl : s.fetch a = none := hl
    unfold SDB.fetch at hl
    cases hx : s.ctx.exist a with
    | false => rfl
    | true => rw [hx, if_pos rfl] at hl; exact (nomatch hl)

theorem Inv.getOrNew {s : SDB X} {v : Full X} {T : List (Nat × Nat × Full X)} (h : Inv s v T) (hwf : s.ctx.WF) (a : Addr) :
    Inv (s.getOrNew a).1 { v with exist := upd v.exist a true } T ∧ (s.getOrNew a).1.objs a = some (s.getOrNew a).2 ∧ Frame s (s.getOrNew a).1 := by
  unfold SDB.getOrNew
  cases hl : s.lookup a with
  | some o =>
    obtain ⟨f1, f2, f3, f4, f5⟩ := h.core.found hl
    have hv : ({ v with exist := upd v.exist a true } : Full X) = v := by rw [upd_eq _ _ _ f1]
    obtain ⟨g1, g2⟩ := load_frame s a
    refine ⟨?_, objs_load hl, g1⟩
    show Inv (s.load a) _ T
    rw [hv]
    exact h.same (h.core.load a) g1.ctx g2 g1.revs g1.next
  | none =>
    obtain ⟨n1, n2⟩ := lookup_none hl
    obtain ⟨a1, a2, a3⟩ := h.core.absent a n1
    have hnd : a ∉ dirt s.journal := fun hm => by
      obtain ⟨q, hq⟩ := h.core.present a hm
      rw [n1] at hq; exact (nomatch hq)
    have hu : undoV s.ctx { v with exist := upd v.exist a true } (.create a) = v := by
      apply Full.same
      · show upd (upd v.exist a true) a (s.ctx.exist a) = _
        rw [upd_upd]; exact upd_eq _ _ _ a1
      · exact upd_eq _ _ _ a2
      · exact upd_eq _ _ _ a3
      · rfl
    refine ⟨?_, upd_same _ _ _, ⟨rfl, rfl, rfl, rfl, rfl, fun _ he => List.mem_cons_of_mem _ he⟩⟩
    refine h.push (e := .create a) (Core.push h.core (e := .create a) hu rfl ?_ ?_ ?_ ?_ ?_ ?_ rfl) rfl rfl rfl rfl hu
    · intro b hb; exact ⟨upd_ne _ _ hb, rfl, rfl⟩
    · intro k _ _; exact congrFun a3 k
    · intro b k p hp; exact (nomatch hp)
    · intro q hq; rw [n1] at hq; exact (nomatch hq)
    · intro b hb; cases hb; exact hnd
    · refine ⟨upd_same _ _ _, ?_, fun k => ?_, fun k u hu => (nomatch hu)⟩
      · show (0 : Int) = v.bal a
        rw [a2, hwf a n2]
      · show s.ctx.state a k = v.state a k
        rw [a3]

theorem Inv.addBalance {s : SDB X} {v : Full X} {T : List (Nat × Nat × Full X)} (h : Inv s v T) (hwf : s.ctx.WF) (a : Addr) (n : Int) :
    Inv (s.addBalance a n) (v.add a n) T ∧ Frame s (s.addBalance a n) := by
  obtain ⟨g1, g2, g3⟩ := h.getOrNew hwf a
  unfold SDB.addBalance
  generalize hgn : s.getOrNew a = z at g1 g2 g3
  obtain ⟨s1, o⟩ := z
  simp only at g1 g2 g3 ⊢
  by_cases hn : n = 0
  · rw [if_pos hn]
    refine ⟨?_, g3⟩
    have : v.add a n = { v with exist := upd v.exist a true } := by
      unfold Full.add
      rw [upd_eq v.bal a _ (by omega)]
    rw [this]; exact g1
  · rw [if_neg hn]
    obtain ⟨o1, o2, o3, o4⟩ := g1.core.obj a o g2
    have hu : undoV s1.ctx (v.add a n) (.balance a o.balance) = { v with exist := upd v.exist a true } := by
      apply Full.same
      · rfl
      · show upd (upd v.bal a _) a o.balance = v.bal
        rw [upd_upd]; exact upd_eq _ _ _ o2.symm
      · rfl
      · rfl
    refine ⟨?_, g3.trans ⟨rfl, rfl, rfl, rfl, rfl, fun _ he => List.mem_cons_of_mem _ he⟩⟩
    refine g1.push (e := .balance a o.balance) (Core.push g1.core (e := .balance a o.balance) hu rfl ?_ ?_ ?_ ?_ ?_ ?_ rfl) rfl rfl rfl rfl hu
    · intro b hb; exact ⟨rfl, upd_ne _ _ hb, rfl⟩
    · intro k _ hk; exact g1.core.views.near.2 a k hk
    · intro b k p hp; exact (nomatch hp)
    · intro q hq k hk
      rw [g2] at hq; cases hq; exact hk
    · intro b hb; exact (nomatch hb)
    · refine ⟨upd_same _ _ _, ?_, o3, o4⟩
      show o.balance + n = upd v.bal a _ a
      rw [upd_same, o2]

theorem stateVal_eq {s : SDB X} {v : Full X} {a : Addr} {o : Obj} (hd : ∀ k, (o.dirty k).getD (s.ctx.state a k) = v.state a k)
    (ho : ∀ k w, o.origin k = some w → w = s.ctx.state a k) (k : Key) : s.stateVal a o k = v.state a k := by
  unfold SDB.stateVal
  rw [← hd k]
  cases hk : o.origin k with
  | none => rfl
  | some w => rw [ho k w hk]; rfl

theorem touch_props {s : SDB X} {a : Addr} {o : Obj} (ho : ∀ k w, o.origin k = some w → w = s.ctx.state a k) (k : Key) :
    (s.touch a o k).balance = o.balance ∧ (s.touch a o k).dirty = o.dirty ∧ ∀ k' w, (s.touch a o k).origin k' = some w → w = s.ctx.state a k' := by
  unfold SDB.touch
  split
  · exact ⟨rfl, rfl, ho⟩
  · refine ⟨rfl, rfl, fun k' w hw => ?_⟩
    by_cases hk : k' = k
    · subst hk
      have := (upd_same o.origin k' (some ((o.origin k').getD (s.ctx.state a k')))).symm.trans hw
      cases this
      cases hk : o.origin k' with
      | none => rfl
      | some w => exact ho k' w hk
    · exact ho k' w ((upd_ne o.origin _ hk).symm.trans hw)

theorem Inv.setState {s : SDB X} {v : Full X} {T : List (Nat × Nat × Full X)} (h : Inv s v T) (hwf : s.ctx.WF) (a : Addr) (k : Key) (w : Word) :
    Inv (s.setState a k w) (v.store a k w) T ∧ Frame s (s.setState a k w) := by
  obtain ⟨g1, g2, g3⟩ := h.getOrNew hwf a
  unfold SDB.setState
  generalize hgn : s.getOrNew a = z at g1 g2 g3
  obtain ⟨s1, o⟩ := z
  simp only at g1 g2 g3 ⊢
  obtain ⟨o1, o2, o3, o4⟩ := g1.core.obj a o g2
  obtain ⟨t1, t2, t3⟩ := touch_props (s := s1) (a := a) (o := o) o4 k
  have hsv : s1.stateVal a o k = v.state a k := stateVal_eq (v := { v with exist := upd v.exist a true }) o3 o4 k
  have hlk : s1.lookup a = some o := by unfold SDB.lookup; rw [g2]
  by_cases hn : s1.stateVal a o k = w
  · rw [if_pos hn]
    refine ⟨?_, g3.trans ⟨rfl, rfl, rfl, rfl, rfl, fun _ he => he⟩⟩
    have : v.store a k w = { v with exist := upd v.exist a true } := by
      unfold Full.store
      rw [upd_eq (v.state a) k w (hsv.symm.trans hn), upd_eq v.state a _ rfl]
    rw [this]
    exact g1.same (g1.core.keep hlk t1 t2 t3) rfl rfl rfl rfl
  · rw [if_neg hn]
    have hu : undoV s1.ctx (v.store a k w) (.storage a k (s1.stateVal a o k)) = { v with exist := upd v.exist a true } := by
      apply Full.same
      · rfl
      · rfl
      · show upd (upd v.state a (upd (v.state a) k w)) a (upd (upd v.state a (upd (v.state a) k w) a) k _) = v.state
        rw [upd_upd, upd_same, upd_upd, upd_eq (v.state a) k _ hsv.symm, upd_eq v.state a _ rfl]
      · rfl
    refine ⟨?_, g3.trans ⟨rfl, rfl, rfl, rfl, rfl, fun _ he => List.mem_cons_of_mem _ he⟩⟩
    refine g1.push (e := .storage a k (s1.stateVal a o k)) (Core.push g1.core (e := .storage a k (s1.stateVal a o k)) hu rfl ?_ ?_ ?_ ?_ ?_ ?_ rfl)
      rfl rfl rfl rfl hu
    · intro b hb; exact ⟨rfl, rfl, upd_ne _ _ hb⟩
    · intro k' hk' hj
      have hne : k' ≠ k := fun hx => hk' _ (by rw [hx])
      show upd v.state a _ a k' = _
      rw [upd_same, upd_ne _ _ hne]
      exact g1.core.views.near.2 a k' hj
    · intro b k' p hp
      cases hp
      refine ⟨rfl, ?_⟩
      show upd _ k _ k ≠ none
      rw [upd_same]; exact fun hx => (nomatch hx)
    · intro q hq k' hk'
      rw [g2] at hq; cases hq
      show upd (s1.touch a o k).dirty k (some w) k' ≠ none
      by_cases hk : k' = k
      · subst hk; rw [upd_same]; exact fun hx => (nomatch hx)
      · rw [upd_ne _ _ hk, t2]; exact hk'
    · intro b hb; exact (nomatch hb)
    · refine ⟨upd_same _ _ _, ?_, fun k' => ?_, t3⟩
      · show (s1.touch a o k).balance = v.bal a
        rw [t1]; exact o2
      · show (upd (s1.touch a o k).dirty k (some w) k').getD _ = upd v.state a (upd (v.state a) k w) a k'
        rw [upd_same, t2]
        by_cases hk : k' = k
        · subst hk; rw [upd_same, upd_same]; rfl
        · rw [upd_ne _ _ hk, upd_ne _ _ hk]; exact o3 k'

theorem undoVs_append (C : Full X) (v : Full X) (j : List (Entry X)) (m n : Nat) :
    undoVs C (undoVs C v j m) (j.drop m) n = undoVs C v j (m + n) := by
  unfold undoVs
  rw [← List.foldl_append, List.take_add]

/-- Going back. -/
theorem Inv.revert {s s' : SDB X} {v : Full X} {T : List (Nat × Nat × Full X)} (h : Inv s v T) {i : Nat} (hr : s.revertTo i = some s') :
    ∃ t, T.find? (fun t => t.1 == i) = some t ∧ Inv s' t.2.2 (T.filter (fun t => t.1 < i)) ∧ s'.ctx = s.ctx := by
  unfold SDB.revertTo at hr
  have hfind : s.revs.find? (fun r => r.1 == i) = (T.find? (fun t => t.1 == i)).map (fun t => (t.1, t.2.1)) := by
    rw [h.revs, List.find?_map]; rfl
  rw [hfind] at hr
  cases ht : T.find? (fun t => t.1 == i) with
  | none => rw [ht] at hr; exact (nomatch hr)
  | some t =>
    rw [ht] at hr
    simp only [Option.map_some, Option.some.injEq] at hr
    have hmem : t ∈ T := List.mem_of_find?_eq_some ht
    have hti : t.1 = i := by have := List.find?_some ht; simpa using this
    obtain ⟨b1, b2, b3⟩ := h.bound t hmem
    obtain ⟨c1, c2, c3, c4, c5⟩ := Core.undoN (s.journal.length - t.2.1) h.core
    rw [b3] at c1
    subst hr
    refine ⟨t, rfl, ⟨⟨c1.obj, c1.absent, c1.present, c1.slot, c1.views, c1.layers, c1.jok, c1.rest⟩, ?_, ?_, ?_⟩, c2⟩
    · show s.revs.filter (fun q => q.1 < i) = _
      rw [h.revs, List.filter_map]; rfl
    · exact h.ord.filter _
    · intro u hu
      obtain ⟨hu1, hu2⟩ := List.mem_filter.mp hu
      have hlt : u.1 < i := of_decide_eq_true hu2
      obtain ⟨d1, d2, d3⟩ := h.bound u hu1
      have hle : u.2.1 ≤ t.2.1 := by
        by_cases hle : u.2.1 ≤ t.2.1
        · exact hle
        · exfalso
          have key : ∀ (T : List (Nat × Nat × Full X)), T.Pairwise (fun t u => t.1 < u.1 ∧ t.2.1 ≤ u.2.1) → u ∈ T → t ∈ T → u.1 < t.1 → u.2.1 ≤ t.2.1 := by
            intro T hp
            induction hp with
            | nil => intro hm; exact (nomatch hm)
            | @cons x l hx _ ih =>
              intro hm hm' hlt
              rcases List.mem_cons.mp hm with rfl | hm2
              · rcases List.mem_cons.mp hm' with rfl | hm'
                · exact absurd hlt (Nat.lt_irrefl _)
                · exact (hx t hm').2
              · rcases List.mem_cons.mp hm' with rfl | hm'
                · exact absurd (Nat.lt_trans hlt (hx u hm2).1) (Nat.lt_irrefl _)
                · exact ih hm2 hm' hlt
          exact hle (key T h.ord hu1 hmem (by rw [hti]; exact hlt))
      refine ⟨by show u.1 < (s.undoN _).nextRev; rw [c4]; exact d1, ?_, ?_⟩
      · show u.2.1 ≤ (s.undoN _).journal.length
        rw [c5, List.length_drop]
        omega
      · show undoVs (s.undoN _).ctx t.2.2 (s.undoN _).journal ((s.undoN _).journal.length - u.2.1) = _
        rw [c2, c5, List.length_drop, ← b3, undoVs_append, ← d3]
        congr 1
        omega

end PC
