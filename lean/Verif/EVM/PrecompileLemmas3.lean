import Verif.EVM.PrecompileLemmas2

/-!
# Helper lemmas on calls of precompiled contracts: calls and runs
-/
namespace PC

variable {X : Type}

/-- The same state over another cached layer. -/
def SDB.over (s : SDB X) (c : Option (Layer X)) : SDB X := { s with cache := c }

theorem over_lookup (s : SDB X) (c : Option (Layer X)) (a : Addr) : (s.over c).lookup a = s.lookup a := rfl

theorem over_load (s : SDB X) (c : Option (Layer X)) (a : Addr) : (s.over c).load a = (s.load a).over c := by
  unfold SDB.load
  rw [show (s.over c).objs = s.objs from rfl]
  cases s.objs a <;> rfl

theorem over_getOrNew (s : SDB X) (c : Option (Layer X)) (a : Addr) :
    (s.over c).getOrNew a = ((s.getOrNew a).1.over c, (s.getOrNew a).2) := by
  unfold SDB.getOrNew
  rw [over_lookup]
  cases s.lookup a with
  | none => rfl
  | some o =>
    show ((s.over c).load a, o) = ((s.load a).over c, o)
    rw [over_load]

theorem over_addBalance (s : SDB X) (c : Option (Layer X)) (a : Addr) (n : Int) : (s.over c).addBalance a n = (s.addBalance a n).over c := by
  unfold SDB.addBalance
  rw [over_getOrNew]
  generalize s.getOrNew a = z
  obtain ⟨s1, o⟩ := z
  simp only
  split <;> rfl

/-- The reported changes. -/
def SDB.addAll (s : SDB X) (l : List (Addr × Int)) : SDB X := l.foldl (fun s e => s.addBalance e.1 e.2) s

def Full.addAll (v : Full X) (l : List (Addr × Int)) : Full X := l.foldl (fun v e => v.add e.1 e.2) v

theorem over_addAll (l : List (Addr × Int)) : ∀ (s : SDB X) (c : Option (Layer X)), (s.over c).addAll l = (s.addAll l).over c := by
  induction l with
  | nil => intro s c; rfl
  | cons e l ih =>
    intro s c
    show ((s.over c).addBalance e.1 e.2).addAll l = ((s.addBalance e.1 e.2).addAll l).over c
    rw [over_addBalance, ih]

theorem Inv.addAll {T : List (Nat × Nat × Full X)} (l : List (Addr × Int)) : ∀ {s : SDB X} {v : Full X}, Inv s v T → s.ctx.WF →
    Inv (s.addAll l) (v.addAll l) T ∧ Frame s (s.addAll l) := by
  induction l with
  | nil => intro s v h _; exact ⟨h, Frame.refl s⟩
  | cons e l ih =>
    intro s v h hwf
    obtain ⟨g1, g2⟩ := h.addBalance hwf e.1 e.2
    obtain ⟨i1, i2⟩ := ih g1 (by rw [g2.ctx]; exact hwf)
    exact ⟨i1, g2.trans i2⟩

theorem addAll_eq (l : List (Addr × Int)) : ∀ (v : Full X), (v.addAll l).exist = (fun a => v.exist a || l.any (fun e => e.1 == a)) ∧
    (v.addAll l).bal = (fun a => v.bal a + SDB.net l a) ∧ (v.addAll l).state = v.state ∧ (v.addAll l).rest = v.rest := by
  induction l with
  | nil =>
    intro v
    refine ⟨?_, ?_, rfl, rfl⟩
    · funext a; simp [Full.addAll]
    · funext a; simp [Full.addAll, SDB.net]
  | cons e l ih =>
    intro v
    obtain ⟨i1, i2, i3, i4⟩ := ih (v.add e.1 e.2)
    refine ⟨?_, ?_, i3, i4⟩
    · show ((v.add e.1 e.2).addAll l).exist = _
      rw [i1]
      funext a
      show (upd v.exist e.1 true a || _) = _
      by_cases ha : a = e.1
      · subst ha; rw [upd_same]; simp
      · rw [upd_ne _ _ ha]
        have : (e.1 == a) = false := by simp; exact fun hx => ha hx.symm
        simp [this]
    · show ((v.add e.1 e.2).addAll l).bal = _
      rw [i2]
      funext a
      show upd v.bal e.1 _ a + _ = v.bal a + SDB.net (e :: l) a
      have hn : SDB.net (e :: l) a = (if e.1 = a then e.2 else 0) + SDB.net l a := by simp [SDB.net]
      rw [hn]
      by_cases ha : a = e.1
      · subst ha; rw [upd_same, if_pos rfl]; omega
      · rw [upd_ne _ _ ha, if_neg fun hx => ha hx.symm]; omega

/-- The mark of a call, over the layer with what the handler wrote. -/
theorem Inv.mark {s : SDB X} {v : Full X} {T : List (Nat × Nat × Full X)} (h : Inv s v T) (L : Layer X) (x : X) (n : Nat)
    (hn : Near s.ctx (L s.ctx) s.journal) (hx : (L s.ctx).rest = x) :
    Inv ({ (s.over (some L)).append (.precompile (s.cache.getD id)) with calls := n } : SDB X) { v with rest := x } T := by
  have hu : undoV s.ctx { v with rest := x } (.precompile (s.cache.getD id)) = v := by
    apply Full.same
    · rfl
    · rfl
    · rfl
    · exact h.core.rest
  refine h.push (e := .precompile (s.cache.getD id)) ?_ rfl rfl rfl rfl hu
  refine ⟨h.core.obj, h.core.absent, h.core.present, ?_, ?_, ⟨hn, h.core.layers⟩, ⟨fun a ha => (nomatch ha), h.core.jok⟩, hx⟩
  · intro a k p hp
    rcases List.mem_cons.mp hp with hp | hp
    · exact (nomatch hp)
    · exact h.core.slot a k p hp
  · refine ⟨⟨fun a ha => h.core.views.near.1 a ha, fun a k hk => h.core.views.near.2 a k fun p hp => hk p (List.mem_cons_of_mem _ hp)⟩, ?_⟩
    show Views s.ctx (undoV s.ctx _ _) s.journal
    rw [hu]; exact h.core.views

/-- A call that succeeds. -/
theorem Inv.call {s s' : SDB X} {v : Full X} {T : List (Nat × Nat × Full X)} (h : Inv s v T) (hwf : s.ctx.WF) {c : Call X} (hc : c.Honest)
    (hs : s.call c = (s', true)) : Inv s' (v.called c) T ∧ s'.ctx = s.ctx := by
  obtain ⟨hc1, hc2⟩ := hc
  unfold SDB.call at hs
  simp only at hs
  split at hs
  · simp at hs
  split at hs
  · simp at hs
  rw [if_neg (by rw [hc1]; exact Bool.false_ne_true)] at hs
  unfold SDB.finish at hs
  simp only [Option.getD_some] at hs
  have hw : SDB.write ({ s with cache := some (s.cache.getD id) } : SDB X) = s.write := rfl
  rw [hw] at hs
  have hF : s.write ((s.cache.getD id) s.ctx) = v := h.core.write
  rw [hF] at hs
  split at hs
  case isFalse => simp at hs
  generalize hr : c.handler v.bal v.rest = r at hs
  have hnet : ∀ a, SDB.net r.report a = SDB.net r.delta a := fun a => by rw [← hr]; exact hc2 v.bal v.rest a
  unfold SDB.register at hs
  simp only at hs
  obtain ⟨a1, a2⟩ := Inv.addAll r.report h hwf
  obtain ⟨g1, g2, g3⟩ := a1.getOrNew (by rw [a2.ctx]; exact hwf) c.addr
  have g4 := a2.trans g3
  -- the state before the mark, over the old layer
  have e1 : (List.foldl (fun s e => s.addBalance e.1 e.2) ({ s with cache := some (fun K => SDB.effect v r (s.write ((s.cache.getD id) K))) } : SDB X) r.report) =
      (s.addAll r.report).over (some (fun K => SDB.effect v r (s.write ((s.cache.getD id) K)))) := over_addAll r.report s _
  rw [e1, over_getOrNew] at hs
  obtain ⟨q1, q2, q3, q4⟩ := addAll_eq r.report v
  have hcache : s.cache.getD id = ((s.addAll r.report).getOrNew c.addr).1.cache.getD id := by rw [g4.cache]
  generalize hs2 : ((s.addAll r.report).getOrNew c.addr).1 = s2 at g1 g2 g3 g4 hcache hs
  have hjs : ∀ b, b ∉ dirt s2.journal → b ∉ dirt s.journal := fun b hb hm => hb (by
    rw [List.mem_filterMap] at hm ⊢
    obtain ⟨x, hx, hd⟩ := hm
    exact ⟨x, g4.sub x hx, hd⟩)
  have hLC : SDB.effect v r (s.write ((s.cache.getD id) s2.ctx)) = SDB.effect v r v := by rw [g4.ctx, hF]
  have hmark := g1.mark (fun K => SDB.effect v r (s.write ((s.cache.getD id) K))) r.rest (s2.calls + 1) (by
    show Near s2.ctx (SDB.effect v r (s.write ((s.cache.getD id) s2.ctx))) s2.journal
    rw [hLC]
    have hv := h.core.views.near
    have hv2 := g1.core.views.near
    refine ⟨fun b hb => ?_, fun b k hk => ?_⟩
    · obtain ⟨m1, m2, m3⟩ := hv.1 b (hjs b hb)
      obtain ⟨n1, n2, n3⟩ := hv2.1 b hb
      have hz : SDB.net r.delta b = 0 := by
        have : v.bal b + SDB.net r.report b = s2.ctx.bal b := by
          rw [← n2]
          show _ = (v.addAll r.report).bal b
          rw [q2]
        rw [hnet] at this
        rw [g4.ctx] at this
        omega
      refine ⟨?_, ?_, ?_⟩
      · show (v.exist b || decide (0 < SDB.net r.delta b)) = _
        rw [hz, m1, g4.ctx]; simp
      · show (if SDB.net r.delta b = 0 then v.bal b else _) = _
        rw [if_pos hz, m2, g4.ctx]
      · show v.state b = _
        rw [m3, g4.ctx]
    · show v.state b k = _
      rw [g4.ctx]
      exact hv.2 b k fun p hp => hk p (g4.sub _ hp)) rfl
  have hview : ({ ({ v.addAll r.report with exist := upd (v.addAll r.report).exist c.addr true } : Full X) with rest := r.rest } : Full X) = v.called c := by
    unfold Full.called
    rw [hr]
    apply Full.same
    · show upd (v.addAll r.report).exist c.addr true = _
      rw [q1]
      funext b
      by_cases hb : b = c.addr
      · subst hb; rw [upd_same]; simp
      · rw [upd_ne _ _ hb]; simp [hb]
    · show (v.addAll r.report).bal = _
      rw [q2]; funext b; rw [hnet]
    · exact q3
    · rfl
  rw [hview] at hmark
  have hs' : s' = ({ (s2.over (some (fun K => SDB.effect v r (s.write ((s.cache.getD id) K))))).append (.precompile (s2.cache.getD id)) with calls := s2.calls + 1 } : SDB X) := by
    rw [← hcache]
    exact (congrArg Prod.fst hs).symm
  rw [hs']
  exact ⟨hmark, g4.ctx⟩

theorem register_next {s : SDB X} (c : Call X) (L : Layer X) (l : List (Addr × Int)) : (s.register c L l).1.nextRev = s.nextRev := by
  have hg : ∀ (s : SDB X) a, (s.getOrNew a).1.nextRev = s.nextRev := by
    intro s a
    unfold SDB.getOrNew
    split
    · exact (load_frame s a).1.next
    · rfl
  have ha : ∀ (s : SDB X) a n, (s.addBalance a n).nextRev = s.nextRev := by
    intro s a n
    have := hg s a
    unfold SDB.addBalance
    generalize s.getOrNew a = z at this
    obtain ⟨s1, o⟩ := z
    simp only at this ⊢
    split <;> exact this
  have hl : ∀ (l : List (Addr × Int)) (s : SDB X), (l.foldl (fun s e => s.addBalance e.1 e.2) s).nextRev = s.nextRev := by
    intro l
    induction l with
    | nil => intro s; rfl
    | cons e l ih => intro s; exact (ih _).trans (ha s e.1 e.2)
  show ((l.foldl (fun s e => s.addBalance e.1 e.2) s).getOrNew c.addr).1.nextRev = _
  rw [hg, hl]

theorem finish_next {s : SDB X} (c : Call X) (L : Layer X) : (s.finish c L).1.nextRev = s.nextRev := by
  unfold SDB.finish
  simp only
  split
  · exact register_next c L _
  · rfl

theorem call_next {s s' : SDB X} {c : Call X} {b : Bool} (h : s.call c = (s', b)) : s'.nextRev = s.nextRev := by
  have : s' = (s.call c).1 := by rw [h]
  rw [this]
  unfold SDB.call
  simp only
  split
  · rfl
  split
  · rfl
  split
  · split
    · rfl
    · next hc =>
      rw [finish_next]
      unfold SDB.commit at hc
      split at hc
      · cases hc; rfl
      · exact (nomatch hc)
  · exact finish_next c _

theorem find_saved (T : List (Nat × Nat × Full X)) (i : Nat) :
    (T.map (fun t => (t.1, t.2.2))).find? (fun e => e.1 == i) = (T.find? (fun t => t.1 == i)).map (fun t => (t.1, t.2.2)) := by
  rw [List.find?_map]; rfl

/-- One operation. -/
theorem Inv.step {s s' : SDB X} {v : Full X} {T : List (Nat × Nat × Full X)} (h : Inv s v T) (hwf : s.ctx.WF) {op : Op X} {o : Out}
    (hs : s.step op = some (s', o)) (hf : ∀ c, op = .call c → c.Honest ∧ o = .bool true) :
    ∃ v' T', Spec.step ⟨v, T.map (fun t => (t.1, t.2.2)), s.nextRev⟩ op (decide (o = .bool true)) =
      some (⟨v', T'.map (fun t => (t.1, t.2.2)), s'.nextRev⟩, o) ∧ Inv s' v' T' ∧ s'.ctx = s.ctx := by
  cases op with
  | exist a =>
    simp only [SDB.step, Option.some.injEq, Prod.mk.injEq] at hs
    obtain ⟨rfl, rfl⟩ := hs
    obtain ⟨g1, g2⟩ := load_frame s a
    refine ⟨v, T, ?_, h.same (h.core.load a) g1.ctx g2 g1.revs g1.next, g1.ctx⟩
    rw [g1.next, h.core.exist a]; rfl
  | getBalance a =>
    simp only [SDB.step, Option.some.injEq, Prod.mk.injEq] at hs
    obtain ⟨rfl, rfl⟩ := hs
    obtain ⟨g1, g2⟩ := load_frame s a
    refine ⟨v, T, ?_, h.same (h.core.load a) g1.ctx g2 g1.revs g1.next, g1.ctx⟩
    rw [g1.next]
    have hb : (match s.lookup a with | none => 0 | some o => o.balance) = v.bal a := by
      cases hl : s.lookup a with
      | some o => exact (h.core.found hl).2.1
      | none =>
        obtain ⟨n1, n2⟩ := lookup_none hl
        show 0 = v.bal a
        rw [(h.core.absent a n1).2.1, hwf a n2]
    exact congrArg (fun z => some ((⟨v, T.map (fun t => (t.1, t.2.2)), s.nextRev⟩ : Spec X), Out.int z)) hb.symm
  | getState a k =>
    simp only [SDB.step] at hs
    cases hl : s.lookup a with
    | none =>
      rw [hl] at hs
      simp only [Option.some.injEq, Prod.mk.injEq] at hs
      obtain ⟨rfl, rfl⟩ := hs
      obtain ⟨g1, g2⟩ := load_frame s a
      refine ⟨v, T, ?_, h.same (h.core.load a) g1.ctx g2 g1.revs g1.next, g1.ctx⟩
      have he : v.exist a = false := by have := h.core.exist a; rw [hl] at this; exact this.symm
      rw [g1.next]
      simp only [Spec.step, he]; rfl
    | some q =>
      rw [hl] at hs
      simp only [Option.some.injEq, Prod.mk.injEq] at hs
      obtain ⟨rfl, rfl⟩ := hs
      obtain ⟨f1, f2, f3, f4, _⟩ := h.core.found hl
      obtain ⟨t1, t2, t3⟩ := touch_props (s := s) (a := a) (o := q) f4 k
      refine ⟨v, T, ?_, h.same (h.core.keep hl t1 t2 t3) rfl rfl rfl rfl, rfl⟩
      simp only [Spec.step, f1, if_true, stateVal_eq f3 f4 k]; rfl
  | addBalance a n =>
    simp only [SDB.step, Option.some.injEq, Prod.mk.injEq] at hs
    obtain ⟨rfl, rfl⟩ := hs
    obtain ⟨g1, g2⟩ := h.addBalance hwf a n
    exact ⟨v.add a n, T, by rw [g2.next]; rfl, g1, g2.ctx⟩
  | setState a k w =>
    simp only [SDB.step, Option.some.injEq, Prod.mk.injEq] at hs
    obtain ⟨rfl, rfl⟩ := hs
    obtain ⟨g1, g2⟩ := h.setState hwf a k w
    exact ⟨v.store a k w, T, by rw [g2.next]; rfl, g1, g2.ctx⟩
  | snapshot =>
    simp only [SDB.step, Option.some.injEq, Prod.mk.injEq] at hs
    obtain ⟨rfl, rfl⟩ := hs
    refine ⟨v, T ++ [(s.nextRev, s.journal.length, v)], ?_, ⟨⟨h.core.obj, h.core.absent, h.core.present, h.core.slot, h.core.views, h.core.layers, h.core.jok, h.core.rest⟩, ?_, ?_, ?_⟩, rfl⟩
    · simp [Spec.step]
    · show s.revs ++ _ = _
      rw [h.revs]; simp
    · rw [List.pairwise_append]
      refine ⟨h.ord, List.pairwise_singleton _ _, fun t ht u hu => ?_⟩
      obtain rfl := List.mem_singleton.mp hu
      exact ⟨(h.bound t ht).1, (h.bound t ht).2.1⟩
    · intro t ht
      rcases List.mem_append.mp ht with ht | ht
      · obtain ⟨b1, b2, b3⟩ := h.bound t ht
        exact ⟨Nat.lt_succ_of_lt b1, b2, b3⟩
      · obtain rfl := List.mem_singleton.mp ht
        refine ⟨Nat.lt_succ_self _, Nat.le_refl _, ?_⟩
        show undoVs s.ctx v s.journal (s.journal.length - s.journal.length) = v
        rw [Nat.sub_self]; rfl
  | revert i =>
    simp only [SDB.step, Option.map_eq_some_iff, Prod.mk.injEq] at hs
    obtain ⟨s1, hr, rfl, rfl⟩ := hs
    obtain ⟨t, ht, hi, hctx⟩ := h.revert hr
    refine ⟨t.2.2, T.filter (fun t => t.1 < i), ?_, hi, hctx⟩
    have hnx : s1.nextRev = s.nextRev := by
      unfold SDB.revertTo at hr
      split at hr
      · exact (nomatch hr)
      · cases hr
        exact (Core.undoN _ h.core).2.2.2.1
    simp only [Spec.step]
    rw [find_saved, ht, hnx]
    simp only [Option.map_some, Option.some.injEq, Prod.mk.injEq, Spec.mk.injEq, and_true, true_and]
    rw [List.filter_map]; rfl
  | call c =>
    obtain ⟨hc, rfl⟩ := hf c rfl
    simp only [SDB.step, Option.some.injEq, Prod.mk.injEq, Out.bool.injEq] at hs
    have hcall : s.call c = (s', true) := Prod.ext hs.1 hs.2
    obtain ⟨g1, g2⟩ := h.call hwf hc hcall
    refine ⟨v.called c, T, ?_, g1, g2⟩
    have hnx : s'.nextRev = s.nextRev := call_next hcall
    rw [hnx]
    simp [Spec.step]

/-- A run. -/
theorem Inv.run : ∀ (ops : List (Op X)) {s s' : SDB X} {v : Full X} {T : List (Nat × Nat × Full X)} {outs : List Out}, Inv s v T → s.ctx.WF →
    s.run ops = some (s', outs) → Fine ops outs →
    ∃ v' T', Spec.run ⟨v, T.map (fun t => (t.1, t.2.2)), s.nextRev⟩ ops outs = some (⟨v', T'.map (fun t => (t.1, t.2.2)), s'.nextRev⟩, outs) ∧
      Inv s' v' T' ∧ s'.ctx = s.ctx
  | [], s, s', v, T, outs, h, _, hr, _ => by
    simp only [SDB.run, Option.some.injEq, Prod.mk.injEq] at hr
    obtain ⟨rfl, rfl⟩ := hr
    exact ⟨v, T, rfl, h, rfl⟩
  | op :: ops, s, s', v, T, outs, h, hwf, hr, hf => by
    simp only [SDB.run, Option.bind_eq_some_iff, Option.map_eq_some_iff, Prod.mk.injEq] at hr
    obtain ⟨⟨s1, o⟩, h1, ⟨s2, os⟩, h2, rfl, rfl⟩ := hr
    have hf1 : (∀ c, op = .call c → c.Honest ∧ o = .bool true) ∧ Fine ops os := by
      cases op with
      | call c => exact ⟨fun c' hc' => by cases hc'; exact ⟨hf.1, hf.2.1⟩, hf.2.2⟩
      | _ => exact ⟨fun c hc => (nomatch hc), hf⟩
    obtain ⟨v1, T1, e1, i1, c1⟩ := h.step hwf h1 hf1.1
    obtain ⟨v2, T2, e2, i2, c2⟩ := Inv.run ops i1 (by rw [c1]; exact hwf) h2 hf1.2
    refine ⟨v2, T2, ?_, i2, c2.trans c1⟩
    simp only [Spec.run]
    rw [e1]
    simp only [Option.bind_some]
    rw [e2]
    rfl

theorem Spec.run_append : ∀ (a : List (Op X)) {b : List (Op X)} {σ : Spec X} {outs : List Out} {r : Spec X × List Out}, Spec.run σ (a ++ b) outs = some r →
    ∃ σ1 o1 o2, outs = o1 ++ o2 ∧ o1.length = a.length ∧ Spec.run σ a o1 = some (σ1, r.2.take a.length) ∧ Spec.run σ1 b o2 = some (r.1, r.2.drop a.length)
  | [], b, σ, outs, r, h => ⟨σ, [], outs, rfl, rfl, rfl, h⟩
  | op :: a, b, σ, [], r, h => by simp [Spec.run] at h
  | op :: a, b, σ, o :: outs, r, h => by
    simp only [List.cons_append, Spec.run, Option.bind_eq_some_iff, Option.map_eq_some_iff] at h
    obtain ⟨⟨σ1, o'⟩, h1, ⟨σ2, os⟩, h2, rfl⟩ := h
    obtain ⟨σ3, p1, p2, e1, e2, e3, e4⟩ := Spec.run_append a h2
    refine ⟨σ3, o :: p1, p2, by rw [e1]; rfl, by simp [e2], ?_, e4⟩
    simp only [Spec.run]
    rw [h1]
    simp only [Option.bind_some]
    rw [e3]
    rfl

theorem Spec.step_keeps {σ σ' : Spec X} {op : Op X} {b : Bool} {o : Out} {i : Nat} (h : σ.step op b = some (σ', o)) (hw : ∀ j, op = .revert j → i < j)
    (hi : i < σ.next) :
    i < σ'.next ∧ σ'.saved.filter (fun e => e.1 ≤ i) = σ.saved.filter (fun e => e.1 ≤ i) := by
  cases op with
  | snapshot =>
    simp only [Spec.step, Option.some.injEq, Prod.mk.injEq] at h
    obtain ⟨rfl, _⟩ := h
    refine ⟨Nat.lt_succ_of_lt hi, ?_⟩
    have : ¬ σ.next ≤ i := by omega
    simp [List.filter_append, this]
  | revert j =>
    simp only [Spec.step, Option.map_eq_some_iff, Prod.mk.injEq] at h
    obtain ⟨e, _, rfl, _⟩ := h
    refine ⟨hi, ?_⟩
    have hij := hw j rfl
    show (σ.saved.filter _).filter _ = _
    rw [List.filter_filter]
    apply List.filter_congr
    intro x _
    simp
    omega
  | call c =>
    simp only [Spec.step, Option.some.injEq, Prod.mk.injEq] at h
    obtain ⟨rfl, _⟩ := h
    split <;> exact ⟨hi, rfl⟩
  | _ =>
    simp only [Spec.step, Option.some.injEq, Prod.mk.injEq] at h
    obtain ⟨rfl, _⟩ := h
    exact ⟨hi, rfl⟩

theorem Spec.run_keeps : ∀ (ops : List (Op X)) {σ σ' : Spec X} {outs os : List Out} {i : Nat}, Spec.run σ ops outs = some (σ', os) → Within i ops → i < σ.next →
    σ'.saved.filter (fun e => e.1 ≤ i) = σ.saved.filter (fun e => e.1 ≤ i)
  | [], σ, σ', outs, os, i, h, _, _ => by
    cases outs with
    | nil => simp only [Spec.run, Option.some.injEq, Prod.mk.injEq] at h; rw [h.1]
    | cons o outs => simp [Spec.run] at h
  | op :: ops, σ, σ', [], os, i, h, _, _ => by simp [Spec.run] at h
  | op :: ops, σ, σ', o :: outs, os, i, h, hw, hi => by
    simp only [Spec.run, Option.bind_eq_some_iff, Option.map_eq_some_iff] at h
    obtain ⟨⟨σ1, o'⟩, h1, ⟨σ2, os'⟩, h2, he⟩ := h
    cases he
    obtain ⟨k1, k2⟩ := Spec.step_keeps h1 (hw op List.mem_cons_self) hi
    rw [Spec.run_keeps ops h2 (fun q hq => hw q (List.mem_cons_of_mem _ hq)) k1, k2]

theorem SDB.run_append : ∀ (a : List (Op X)) {b : List (Op X)} {s s' : SDB X} {outs : List Out}, s.run (a ++ b) = some (s', outs) →
    ∃ s1 o1 o2, outs = o1 ++ o2 ∧ o1.length = a.length ∧ s.run a = some (s1, o1) ∧ s1.run b = some (s', o2)
  | [], b, s, s', outs, h => ⟨s, [], outs, rfl, rfl, rfl, h⟩
  | op :: a, b, s, s', outs, h => by
    simp only [List.cons_append, SDB.run, Option.bind_eq_some_iff, Option.map_eq_some_iff, Prod.mk.injEq] at h
    obtain ⟨⟨s1, o⟩, h1, ⟨s2, os⟩, h2, rfl, rfl⟩ := h
    obtain ⟨s3, p1, p2, e1, e2, e3, e4⟩ := SDB.run_append a h2
    refine ⟨s3, o :: p1, p2, by rw [e1]; rfl, by simp [e2], ?_, e4⟩
    simp only [SDB.run]
    rw [h1]
    simp only [Option.bind_some]
    rw [e3]
    rfl

theorem Fine.left : ∀ (a : List (Op X)) {b : List (Op X)} {o1 o2 : List Out}, o1.length = a.length → Fine (a ++ b) (o1 ++ o2) → Fine a o1
  | [], b, o1, o2, hl, h => by
    have : o1 = [] := List.length_eq_zero_iff.mp hl
    subst this
    trivial
  | op :: a, b, [], o2, hl, h => by simp at hl
  | op :: a, b, o :: o1, o2, hl, h => by
    have hl' : o1.length = a.length := by simpa using hl
    cases op with
    | call c => exact ⟨h.1, h.2.1, Fine.left a hl' h.2.2⟩
    | _ => exact Fine.left a (b := b) (o2 := o2) hl' h

/-- The saved values have numbers below the next one, each once. -/
theorem Inv.saved_lt {s : SDB X} {v : Full X} {T : List (Nat × Nat × Full X)} (h : Inv s v T) : ∀ t ∈ T, t.1 < s.nextRev := fun t ht => (h.bound t ht).1

theorem sum_add (A : List Addr) (f g : Addr → Int) : (A.map (fun a => f a + g a)).sum = (A.map f).sum + (A.map g).sum := by
  induction A with
  | nil => rfl
  | cons x A ih => simp only [List.map_cons, List.sum_cons, ih]; omega

theorem sum_upd {A : List Addr} (hA : A.Nodup) (f : Addr → Int) {a : Addr} (ha : a ∈ A) (x : Int) : (A.map (upd f a x)).sum = (A.map f).sum + (x - f a) := by
  induction A with
  | nil => exact (nomatch ha)
  | cons y A ih =>
    obtain ⟨h1, h2⟩ := List.nodup_cons.mp hA
    simp only [List.map_cons, List.sum_cons]
    rcases List.mem_cons.mp ha with rfl | ha
    · have : A.map (upd f a x) = A.map f := List.map_congr_left fun b hb => upd_ne _ _ fun hx => h1 (hx ▸ hb)
      rw [this, upd_same]; omega
    · have : y ≠ a := fun hx => h1 (hx ▸ ha)
      rw [ih h2 ha, upd_ne _ _ this]; omega

theorem total_transfer {A : List Addr} (hA : A.Nodup) (held : X → Int) (v : Full X) {a b : Addr} (ha : a ∈ A) (hb : b ∈ A) (n : Int) :
    ((v.add a (-n)).add b n).total A held = v.total A held := by
  show (A.map (upd (upd v.bal a (v.bal a + -n)) b (upd v.bal a (v.bal a + -n) b + n))).sum + held v.rest = (A.map v.bal).sum + held v.rest
  rw [sum_upd hA _ hb, sum_upd hA _ ha]
  omega

/-- All values, the present and the saved ones, have the same coins. -/
def Spec.Holds (A : List Addr) (held : X → Int) (n : Int) (σ : Spec X) : Prop := σ.cur.total A held = n ∧ ∀ e ∈ σ.saved, e.2.total A held = n

theorem Spec.Holds.step {A : List Addr} {held : X → Int} {n : Int} {σ σ' : Spec X} (h : σ.Holds A held n) {op : Op X} {b : Bool} {o : Out}
    (hs : σ.step op b = some (σ', o)) (hb : (Act.op op).Balanced A held) : σ'.Holds A held n := by
  cases op with
  | addBalance a m => exact hb.elim
  | snapshot =>
    simp only [Spec.step, Option.some.injEq, Prod.mk.injEq] at hs
    obtain ⟨rfl, _⟩ := hs
    refine ⟨h.1, fun e he => ?_⟩
    rcases List.mem_append.mp he with he | he
    · exact h.2 e he
    · obtain rfl := List.mem_singleton.mp he
      exact h.1
  | revert j =>
    simp only [Spec.step, Option.map_eq_some_iff, Prod.mk.injEq] at hs
    obtain ⟨e, he, rfl, _⟩ := hs
    exact ⟨h.2 e (List.mem_of_find?_eq_some he), fun q hq => h.2 q (List.mem_filter.mp hq).1⟩
  | call c =>
    simp only [Spec.step, Option.some.injEq, Prod.mk.injEq] at hs
    obtain ⟨rfl, _⟩ := hs
    split
    · refine ⟨?_, h.2⟩
      have := hb σ.cur.bal σ.cur.rest
      have h1 := h.1
      show (A.map (fun a => σ.cur.bal a + SDB.net (c.handler σ.cur.bal σ.cur.rest).delta a)).sum + held (c.handler σ.cur.bal σ.cur.rest).rest = n
      rw [sum_add]
      unfold Full.total at h1
      have e : (A.map (fun a => SDB.net (c.handler σ.cur.bal σ.cur.rest).delta a)).sum = (A.map (SDB.net (c.handler σ.cur.bal σ.cur.rest).delta)).sum := rfl
      omega
    · exact h
  | _ =>
    simp only [Spec.step, Option.some.injEq, Prod.mk.injEq] at hs
    obtain ⟨rfl, _⟩ := hs
    exact h

theorem Spec.Holds.run {A : List Addr} (hA : A.Nodup) {held : X → Int} {n : Int} : ∀ (acts : List (Act X)) {σ σ' : Spec X} {outs os : List Out},
    σ.Holds A held n → Spec.run σ (acts.flatMap Act.ops) outs = some (σ', os) → (∀ t ∈ acts, t.Balanced A held) → σ'.Holds A held n
  | [], σ, σ', outs, os, h, hr, _ => by
    cases outs with
    | nil => simp only [List.flatMap_nil, Spec.run, Option.some.injEq, Prod.mk.injEq] at hr; rw [← hr.1]; exact h
    | cons o outs => simp [Spec.run] at hr
  | t :: acts, σ, σ', outs, os, h, hr, hb => by
    rw [List.flatMap_cons] at hr
    obtain ⟨σ1, o1, o2, e1, e2, e3, e4⟩ := Spec.run_append t.ops hr
    refine Spec.Holds.run hA acts ?_ e4 fun q hq => hb q (List.mem_cons_of_mem _ hq)
    have hbt := hb t List.mem_cons_self
    cases t with
    | op op =>
      cases o1 with
      | nil => simp [Act.ops] at e2
      | cons o o1 =>
        have ho1 : o1 = [] := by simpa [Act.ops] using e2
        subst ho1
        simp only [Act.ops, Spec.run, Option.bind_eq_some_iff, Option.map_eq_some_iff, Option.some.injEq, Prod.mk.injEq] at e3
        obtain ⟨⟨σ2, o'⟩, h1, ⟨σ3, os3⟩, h2, h3, _⟩ := e3
        have h23 : σ2 = σ3 := congrArg Prod.fst h2
        rw [← h3, ← h23]
        exact h.step h1 hbt
    | transfer a b m =>
      cases o1 with
      | nil => simp [Act.ops] at e2
      | cons o o1 => cases o1 with
        | nil => simp [Act.ops] at e2
        | cons o' o1 =>
          have ho1 : o1 = [] := by simpa [Act.ops] using e2
          subst ho1
          simp only [Act.ops, Spec.run, Spec.step, Option.bind_some, Option.map_some, Option.some.injEq, Prod.mk.injEq] at e3
          rw [← e3.1]
          refine ⟨?_, h.2⟩
          show ((σ.cur.add a (-m)).add b m).total A held = n
          rw [total_transfer hA held σ.cur hbt.1 hbt.2]
          exact h.1

end PC
