import Verif.MemIAVL.HeapLemmas2
/-! Helper lemmas for the heap model: rebalancing, `setRecursive` and `removeRecursive`. -/
set_option linter.unusedSimpArgs false
set_option linter.unusedVariables false
namespace MemIAVL
open Varint

variable {H : Bytes → Bytes} {c : Nat}

theorem Eff.append (h : Heap) (F : List Nat) (cells : List Cell) : Eff h F (h ++ cells) :=
  ⟨by simp, fun x hx _ => List.getElem?_append_left hx⟩

theorem Rep.append {h ref n R F} (hr : Rep H c h ref n R F) (cells : List Cell) : Rep H c (h ++ cells) ref n R F :=
  hr.eff (Eff.append h [] cells) (by simp)

theorem Eff.view_pers {h F0 h'} (n : Node) (e : Eff h F0 h') : h'.view (.pers n) = h.view (.pers n) := rfl

theorem Post.trans {h0 R0 F0 h1 R1 F1 h2 ref n} (e : Eff h0 F0 h1) (p : Post H c h1 R1 F1 h2 ref n)
    (hF : ∀ x ∈ F1, x ∈ F0 ∨ h0.length ≤ x) (hR : ∀ x ∈ R1, x ∈ R0 ∨ h0.length ≤ x) :
    Post H c h0 R0 F0 h2 ref n := by
  obtain ⟨⟨R, F, r, nd, f1, f2⟩, e2⟩ := p
  refine ⟨⟨R, F, r, nd, fun x hx => ?_, fun x hx => ?_⟩, e.trans e2 hF⟩
  · rcases f1 x hx with h | h
    · exact hF x h
    · have := e.len; right; omega
  · rcases f2 x hx with h | h
    · exact hR x h
    · have := e.len; right; omega

/-- `Mutate` followed by an assignment of children (and key), after work below. -/
theorem mutate_upd {h h' : Heap} {ref ht sz ver k l r R F F0 val rl rr hs}
    (hr : Rep H c h ref (.branch ht sz ver k l r) R F)
    (hview : h.view ref = some ⟨ht, sz, ver, k, val, some rl, some rr, hs⟩)
    (version : Nat) (hv : c < version)
    (e : Eff h F0 h') (hF0 : ∀ x ∈ F0, x ∈ F) (hF0a : ∀ a, ref = .ptr a → c < ver → a ∉ F0)
    {l' r' rl' rr' Rl' Fl' Rr' Fr' k'} (hl' : Rep H c h' rl' l' Rl' Fl') (hr' : Rep H c h' rr' r' Rr' Fr')
    (nl : Fl'.Nodup) (nr : Fr'.Nodup) (dis : ∀ x ∈ Fl', x ∉ Fr')
    (na : ∀ a, ref = .ptr a → c < ver → a ∉ Fl' ∧ a ∉ Fr')
    (f : Cell → Cell)
    (hf : f ⟨ht, sz, version, k, val, some rl, some rr, none⟩ = ⟨ht, sz, version, k', val, some rl', some rr', none⟩) :
    ∃ h2 a, h'.mutate version c ref = some (h2, a) ∧
      Parts H c (h2.upd a f) a ht sz version k' l' r' val rl' rr' Rl' Fl' Rr' Fr' ∧
      (a ∈ F ∨ h.length ≤ a) ∧ Eff h F (h2.upd a f) := by
  have eF : Eff h F h' := e.mono fun x hx => .inl (hF0 x hx)
  -- the cloning cases
  have clone : ∀ cell : Cell, cell = ⟨ht, sz, version, k, val, some rl, some rr, none⟩ →
      Parts H c ((h' ++ [cell]).upd h'.length f) h'.length ht sz version k' l' r' val rl' rr' Rl' Fl' Rr' Fr' ∧
      (h'.length ∈ F ∨ h.length ≤ h'.length) ∧ Eff h F ((h' ++ [cell]).upd h'.length f) := by
    rintro _ rfl
    have n1 : h'.length ∉ Rl' := fun hx => by have := hl'.lt hx; omega
    have n2 : h'.length ∉ Rr' := fun hx => by have := hr'.lt hx; omega
    refine ⟨⟨?_, (hl'.append _).upd n1 f, (hr'.append _).upd n2 f, nl, nr, dis,
      ⟨fun hx => n1 (hl'.subset hx), fun hx => n2 (hr'.subset hx)⟩, hv⟩, .inr e.len,
      (eF.trans (Eff.append h' [] _) (by simp)).upd (.inr e.len) f⟩
    rw [upd_same (c := ⟨ht, sz, version, k, val, some rl, some rr, none⟩) (by simp), hf]
  cases hr with
  | pers n =>
    simp only [Heap.view, Node.asCell, Option.some.injEq, Cell.mk.injEq] at hview
    obtain ⟨-, -, -, -, rfl, ⟨-⟩, ⟨-⟩, rfl⟩ := hview
    exact ⟨_, _, rfl, clone _ (by simp [Node.asCell])⟩
  | branch a ht sz ver k val rl rr hs l r Rl Fl Rr Fr h1 h2 h3 hl hr =>
    simp only [Heap.view] at hview
    rw [h1] at hview
    simp only [Option.some.injEq, Cell.mk.injEq, true_and] at hview
    obtain ⟨rfl, rfl, rfl, rfl⟩ := hview
    have hal : a < h.length := (List.getElem?_eq_some_iff.1 h1).1
    by_cases hcv : ver ≤ c
    · have haF : a ∉ F0 := fun hx => by
        obtain ⟨_, cell, hc, hlt⟩ := ((Rep.branch a ht sz ver k val rl rr hs l r Rl Fl Rr Fr h1 h2 h3 hl hr).mem_F a).1 (hF0 a hx)
        rw [h1] at hc; cases hc; simp at hlt; omega
      have hca : h'[a]? = _ := (e.same a hal haF).trans h1
      refine ⟨h' ++ [⟨ht, sz, version, k, val, some rl, some rr, none⟩], h'.length, ?_, clone _ rfl⟩
      simp [Heap.mutate, hca, hcv]
    · have hcv' : c < ver := by omega
      have hca : h'[a]? = _ := (e.same a hal (hF0a a rfl hcv')).trans h1
      have na := na a rfl hcv'
      have naR : a ∉ Rl' ∧ a ∉ Rr' := ⟨hl'.not_mem hca hcv' na.1, hr'.not_mem hca hcv' na.2⟩
      refine ⟨h'.upd a (fun c => { c with version, hash := none }), a, ?_, ⟨?_, (hl'.upd naR.1 _).upd naR.1 _,
        (hr'.upd naR.2 _).upd naR.2 _, nl, nr, dis, na, hv⟩, .inl (by simp [mem_own, hcv']), ?_⟩
      · simp [Heap.mutate, hca, hcv]
      · rw [upd_same (upd_same hca _), hf]
      · exact (eF.upd (.inl (by simp [mem_own, hcv'])) _).upd (.inl (by simp [mem_own, hcv'])) _

/-- Replacing the left child of a writable cell. -/
theorem Parts.setLeft {h h' : Heap} {a ht sz ver k l r val rl rr Rl Fl Rr Fr F0 rl' l' Rl' Fl'}
    (p : Parts H c h a ht sz ver k l r val rl rr Rl Fl Rr Fr) (e : Eff h F0 h') (hF0 : ∀ x ∈ F0, x ∈ Fl ∨ h.length ≤ x)
    (hl' : Rep H c h' rl' l' Rl' Fl') (nl : Fl'.Nodup) (hF : ∀ x ∈ Fl', x ∈ Fl ∨ h.length ≤ x) :
    Parts H c (h'.upd a (fun c => { c with left := some rl' })) a ht sz ver k l' r val rl' rr Rl' Fl' Rr Fr := by
  have hal : a < h.length := (List.getElem?_eq_some_iff.1 p.cell).1
  have hca : h'[a]? = _ := (e.same a hal fun hx => (hF0 a hx).elim p.na.1 (by omega)).trans p.cell
  have naF : a ∉ Fl' := fun hx => (hF a hx).elim p.na.1 (by omega)
  refine ⟨by rw [upd_same hca], hl'.upd (hl'.not_mem hca p.ver naF) _, Rep.upd ?_ p.nar _, nl, p.nodr, ?_, ⟨naF, p.na.2⟩, p.ver⟩
  · exact p.repr.frame fun x hx => e.same x (p.repr.lt hx) fun hx0 =>
      (hF0 x hx0).elim (fun h => p.repl.disj p.repr p.alr h hx) (by have := p.repr.lt hx; omega)
  · exact fun x hx hxr => (hF x hx).elim (fun h => p.alr x h hxr) (by have := p.repr.lt (p.repr.subset hxr); omega)

/-- Replacing the right child of a writable cell. -/
theorem Parts.setRight {h h' : Heap} {a ht sz ver k l r val rl rr Rl Fl Rr Fr F0 rr' r' Rr' Fr'}
    (p : Parts H c h a ht sz ver k l r val rl rr Rl Fl Rr Fr) (e : Eff h F0 h') (hF0 : ∀ x ∈ F0, x ∈ Fr ∨ h.length ≤ x)
    (hr' : Rep H c h' rr' r' Rr' Fr') (nr : Fr'.Nodup) (hF : ∀ x ∈ Fr', x ∈ Fr ∨ h.length ≤ x) :
    Parts H c (h'.upd a (fun c => { c with right := some rr' })) a ht sz ver k l r' val rl rr' Rl Fl Rr' Fr' := by
  have hal : a < h.length := (List.getElem?_eq_some_iff.1 p.cell).1
  have alr' : ∀ x ∈ Fr, x ∉ Fl := fun x hx hx' => p.alr x hx' hx
  have hca : h'[a]? = _ := (e.same a hal fun hx => (hF0 a hx).elim p.na.2 (by omega)).trans p.cell
  have naF : a ∉ Fr' := fun hx => (hF a hx).elim p.na.2 (by omega)
  refine ⟨by rw [upd_same hca], Rep.upd ?_ p.nal _, hr'.upd (hr'.not_mem hca p.ver naF) _, p.nodl, nr, ?_, ⟨p.na.1, naF⟩, p.ver⟩
  · exact p.repl.frame fun x hx => e.same x (p.repl.lt hx) fun hx0 =>
      (hF0 x hx0).elim (fun h => p.repr.disj p.repl alr' h hx) (by have := p.repl.lt hx; omega)
  · exact fun x hxl hx => (hF x hx).elim (fun h => p.alr x hxl h) (by have := p.repl.lt (p.repl.subset hxl); omega)

theorem Parts.calcBalance {h a ht sz ver k l r val rl rr Rl Fl Rr Fr}
    (p : Parts H c h a ht sz ver k l r val rl rr Rl Fl Rr Fr) :
    h.calcBalance (.ptr a) = some ((l.height : Int) - r.height) := by
  obtain ⟨cl, el, hl1, _⟩ := p.repl.view
  obtain ⟨cr, er, hr1, _⟩ := p.repr.view
  simp [Heap.calcBalance, Heap.view, p.cell]
  simp only [Heap.view] at el er
  cases rl <;> cases rr <;> simp_all

theorem Rep.calcBalance {h ref ht sz ver k l r R F} (hr : Rep H c h ref (.branch ht sz ver k l r) R F) :
    h.calcBalance ref = some ((l.height : Int) - r.height) := by
  obtain ⟨val, rl, rr, hs, Rl, Fl, Rr, Fr, ev, hl, hr, _⟩ := hr.view_branch
  obtain ⟨cl, el, hl1, _⟩ := hl.view
  obtain ⟨cr, er, hr1, _⟩ := hr.view
  simp [Heap.calcBalance, ev, el, er, hl1, hr1]

theorem Parts.reBalance {h a ver k l r val rl rr Rl Fl Rr Fr ht sz}
    (p : Parts H c h a ht sz ver k l r val rl rr Rl Fl Rr Fr) (h0 : ht ≠ 0) (version : Nat) (hv : c < version) :
    ∃ h' a', h.reBalance version c a = some (h', a') ∧
      Post H c h (a :: (Rl ++ Rr)) (a :: (Fl ++ Fr)) h' (.ptr a') (Node.reBalance version (.branch ht sz ver k l r)) := by
  have hcb := p.calcBalance
  by_cases b1 : (l.height : Int) - r.height > 1
  · cases l with
    | leaf => simp only [Node.height] at b1; omega
    | branch lh ls lver lk ll lr =>
      have hlb := p.repl.calcBalance
      by_cases b2 : (ll.height : Int) - lr.height ≥ 0
      · obtain ⟨h', a', e1, e2⟩ := rotateRight_spec p version hv
        refine ⟨h', a', ?_, ?_⟩
        · simp only [Heap.reBalance, hcb, p.cell, Option.bind_eq_bind, Option.bind_some, ↓reduceIte, Option.pure_def, hlb, b1, b2, e1]
        · simp only [Node.reBalance, Node.calcBalance, b1, b2, Node.rotateRight, ↓reduceIte]; exact e2
      · cases lr with
        | leaf => simp only [Node.height] at b2; omega
        | branch rh rs rver rk rl' rr' =>
          obtain ⟨h1, m, val', rll, rlr, Rll, Fll, Rlr, Flr, em, pm, -, hm, s1, s2, s3, s4, hlen, hsame⟩ :=
            mutate_branch p.repl p.nodl version hv
          obtain ⟨h2, m', e3, ⟨R', F', rep', nd', hF', hR'⟩, eff'⟩ := rotateLeft_spec pm version hv
          have hmF : m ∈ Fl ∨ h.length ≤ m := hm.imp_right (by omega)
          have e1 : Eff h Fl h1 := ⟨hlen, fun x hx hn => hsame x hx fun e => by
            rcases hmF with h | h
            · exact hn (e ▸ h)
            · omega⟩
          have hsub : ∀ x ∈ m :: (Fll ++ Flr), x ∈ Fl ∨ h.length ≤ x := by
            intro x hx
            simp only [List.mem_cons, List.mem_append] at hx
            rcases hx with rfl | hx | hx
            · exact hmF
            · exact .inl (s1 x hx)
            · exact .inl (s2 x hx)
          have e2 : Eff h Fl h2 := e1.trans eff' hsub
          have hF2 : ∀ x ∈ F', x ∈ Fl ∨ h.length ≤ x := fun x hx => (hF' x hx).elim (hsub x) (by omega)
          have p2 := p.setLeft e2 (fun x hx => .inl hx) rep' nd' hF2
          obtain ⟨h', a', e4, p4⟩ := rotateRight_spec p2 version hv
          refine ⟨h', a', ?_, Post.trans ?_ (by simp only [Node.reBalance, Node.calcBalance, b1, b2, Node.rotateRight,
            Node.rotateLeft, Node.setVersion, Node.mk, ↓reduceIte]; exact p4) ?_ ?_⟩
          · simp only [Heap.reBalance, hcb, p.cell, Option.bind_eq_bind, Option.bind_some, ↓reduceIte, Option.pure_def, hlb, b1, b2, em, e3, e4]
          · exact (e2.mono fun x hx => .inl (by simp [hx])).upd (.inl (by simp)) _
          · intro x hx
            simp only [List.mem_cons, List.mem_append] at hx ⊢
            rcases hx with rfl | hx | hx
            · simp
            · rcases hF2 x hx with h | h
              · simp [h]
              · exact .inr h
            · simp [hx]
          · intro x hx
            simp only [List.mem_cons, List.mem_append] at hx ⊢
            rcases hx with rfl | hx | hx
            · simp
            · rcases hR' x hx with h | h
              · simp only [List.mem_cons, List.mem_append] at h
                rcases h with rfl | h | h
                · rcases hmF with h | h
                  · simp [p.repl.subset h]
                  · exact .inr h
                · simp [s3 x h]
                · simp [s4 x h]
              · right; omega
            · simp [hx]
  · by_cases b2 : (l.height : Int) - r.height < -1
    · cases r with
      | leaf => simp only [Node.height] at b2; omega
      | branch lh ls lver lk ll lr =>
        have hlb := p.repr.calcBalance
        by_cases b3 : (ll.height : Int) - lr.height ≤ 0
        · obtain ⟨h', a', e1, e2⟩ := rotateLeft_spec p version hv
          refine ⟨h', a', ?_, ?_⟩
          · simp only [Heap.reBalance, hcb, p.cell, Option.bind_eq_bind, Option.bind_some, ↓reduceIte, Option.pure_def, hlb, b1, b2, b3, e1]
          · simp only [Node.reBalance, Node.calcBalance, b1, b2, b3, Node.rotateLeft, ↓reduceIte]; exact e2
        · cases ll with
          | leaf => simp only [Node.height] at b3; omega
          | branch rh rs rver rk rl' rr' =>
            obtain ⟨h1, m, val', rll, rlr, Rll, Fll, Rlr, Flr, em, pm, -, hm, s1, s2, s3, s4, hlen, hsame⟩ :=
              mutate_branch p.repr p.nodr version hv
            obtain ⟨h2, m', e3, ⟨R', F', rep', nd', hF', hR'⟩, eff'⟩ := rotateRight_spec pm version hv
            have hmF : m ∈ Fr ∨ h.length ≤ m := hm.imp_right (by omega)
            have e1 : Eff h Fr h1 := ⟨hlen, fun x hx hn => hsame x hx fun e => by
              rcases hmF with h | h
              · exact hn (e ▸ h)
              · omega⟩
            have hsub : ∀ x ∈ m :: (Fll ++ Flr), x ∈ Fr ∨ h.length ≤ x := by
              intro x hx
              simp only [List.mem_cons, List.mem_append] at hx
              rcases hx with rfl | hx | hx
              · exact hmF
              · exact .inl (s1 x hx)
              · exact .inl (s2 x hx)
            have e2 : Eff h Fr h2 := e1.trans eff' hsub
            have hF2 : ∀ x ∈ F', x ∈ Fr ∨ h.length ≤ x := fun x hx => (hF' x hx).elim (hsub x) (by omega)
            have p2 := p.setRight e2 (fun x hx => .inl hx) rep' nd' hF2
            obtain ⟨h', a', e4, p4⟩ := rotateLeft_spec p2 version hv
            refine ⟨h', a', ?_, Post.trans ?_ (by simp only [Node.reBalance, Node.calcBalance, b1, b2, b3, Node.rotateRight,
              Node.rotateLeft, Node.setVersion, Node.mk, ↓reduceIte]; exact p4) ?_ ?_⟩
            · simp only [Heap.reBalance, hcb, p.cell, Option.bind_eq_bind, Option.bind_some, ↓reduceIte, Option.pure_def, hlb, b1, b2, b3, em, e3, e4]
            · exact (e2.mono fun x hx => .inl (by simp [hx])).upd (.inl (by simp)) _
            · intro x hx
              simp only [List.mem_cons, List.mem_append] at hx ⊢
              rcases hx with rfl | hx | hx
              · simp
              · simp [hx]
              · rcases hF2 x hx with h | h
                · simp [h]
                · exact .inr h
            · intro x hx
              simp only [List.mem_cons, List.mem_append] at hx ⊢
              rcases hx with rfl | hx | hx
              · simp
              · simp [hx]
              · rcases hR' x hx with h | h
                · simp only [List.mem_cons, List.mem_append] at h
                  rcases h with rfl | h | h
                  · rcases hmF with h | h
                    · simp [p.repr.subset h]
                    · exact .inr h
                  · simp [s3 x h]
                  · simp [s4 x h]
                · right; omega
    · refine ⟨h, a, ?_, ⟨⟨_, _, ?_, p.nodup, fun x hx => .inl hx, fun x hx => .inl hx⟩, Eff.refl _ _⟩⟩
      · simp only [Heap.reBalance, hcb, p.cell, Option.bind_eq_bind, Option.bind_some, ↓reduceIte, Option.pure_def, b1, b2]
      · simp only [Node.reBalance, Node.calcBalance, b1, b2, ↓reduceIte]; exact p.rep h0

/-- `updateHeightSize` then `reBalance`. -/
theorem Parts.finish {h a ver k l r val rl rr Rl Fl Rr Fr ht sz}
    (p : Parts H c h a ht sz ver k l r val rl rr Rl Fl Rr Fr) (version : Nat) (hv : c < version) :
    ∃ h1 h' a', h.updateHeightSize a = some h1 ∧ h1.reBalance version c a = some (h', a') ∧
      Post H c h (a :: (Rl ++ Rr)) (a :: (Fl ++ Fr)) h' (.ptr a') (Node.reBalance version (Node.mk ver k l r)) := by
  obtain ⟨f, e1, p1⟩ := p.updateHeightSize
  obtain ⟨h', a', e2, p2⟩ := p1.reBalance (by omega) version hv
  exact ⟨_, h', a', e1, e2, p2.trans ((Eff.refl h _).upd (.inl (by simp)) f) (fun x hx => .inl hx) (fun x hx => .inl hx)⟩

/-- `Mutate` of a leaf and assignment of the value. -/
theorem mutate_leaf {h : Heap} {ref k v ver R F} (hr : Rep H c h ref (.leaf k v ver) R F)
    (version : Nat) (hv : c < version) (value : Val) :
    ∃ h1 a, h.mutate version c ref = some (h1, a) ∧
      Post H c h R F (h1.upd a (fun c => { c with value })) (.ptr a) (.leaf k value version) := by
  have clone : Post H c h R F (Heap.upd (h ++ [(⟨0, 1, version, k, v, none, none, none⟩ : Cell)]) h.length (fun c => { c with value }))
      (.ptr h.length) (.leaf k value version) := by
    refine ⟨⟨_, _, .leaf h.length k value version none (upd_same (c := ⟨0, 1, version, k, v, none, none, none⟩) (by simp) _)
      (by simp), by unfold own; split <;> simp, fun x hx => ?_, fun x hx => ?_⟩,
      (Eff.append h F _).upd (.inr (Nat.le_refl _)) _⟩
    · have := (mem_own.1 hx).1; right; omega
    · simp at hx; right; omega
  cases hr with
  | pers n => exact ⟨_, _, rfl, clone⟩
  | leaf a k v ver hs h1 h2 =>
    by_cases hcv : ver ≤ c
    · exact ⟨h ++ [⟨0, 1, version, k, v, none, none, none⟩], h.length, by simp [Heap.mutate, h1, hcv], clone⟩
    · have ha : a ∈ own c ver a := mem_own.2 ⟨rfl, by omega⟩
      refine ⟨h.upd a (fun c => { c with version, hash := none }), a, by simp [Heap.mutate, h1, hcv],
        ⟨_, _, .leaf a k value version none (upd_same (upd_same h1 _) _) (by simp), by unfold own; split <;> simp,
          fun x hx => ?_, fun x hx => ?_⟩, ((Eff.refl h _).upd (.inl ha) _).upd (.inl ha) _⟩
      · rw [(mem_own.1 hx).1]; exact .inl ha
      · exact .inl hx

/-- Putting a changed left child under the node. -/
theorem mutate_left {h h' : Heap} {ref ht sz ver k l r R F Rl Fl Rr Fr val rl rr hs version rl' l'}
    (hr : Rep H c h ref (.branch ht sz ver k l r) R F) (hn : F.Nodup)
    (hview : h.view ref = some ⟨ht, sz, ver, k, val, some rl, some rr, hs⟩)
    (hrr : Rep H c h rr r Rr Fr) (s1 : ∀ x ∈ Fl, x ∈ F) (s2 : ∀ x ∈ Fr, x ∈ F) (s3 : ∀ x ∈ Rl, x ∈ R) (s4 : ∀ x ∈ Rr, x ∈ R)
    (nd : Fr.Nodup ∧ ∀ x ∈ Fl, x ∉ Fr) (hFl : ∀ x ∈ Fl, ∃ cell, h[x]? = some cell ∧ c < cell.version)
    (hna : ∀ a, ref = .ptr a → a ∈ R ∧ (c < ver → a ∈ F) ∧ (F.Nodup → c < ver → a ∉ Fl ∧ a ∉ Fr))
    (hv : c < version) (po : Post H c h Rl Fl h' rl' l') :
    ∃ h2 a Rl' Fl', h'.mutate version c ref = some (h2, a) ∧
      Parts H c (h2.upd a (fun c => { c with left := some rl' })) a ht sz version k l' r val rl' rr Rl' Fl' Rr Fr ∧
      Eff h F (h2.upd a (fun c => { c with left := some rl' })) ∧
      (∀ x ∈ a :: (Fl' ++ Fr), x ∈ F ∨ h.length ≤ x) ∧ (∀ x ∈ a :: (Rl' ++ Rr), x ∈ R ∨ h.length ≤ x) := by
  obtain ⟨⟨Rl', Fl', rep', nd', hF', hR'⟩, e⟩ := po
  have hrr' : Rep H c h' rr r Rr Fr := hrr.eff e fun x hx hx' =>
    nd.2 x hx ((hrr.mem_F x).2 ⟨hx', hFl x hx⟩)
  obtain ⟨h2, a, em, p, ha, e2⟩ := mutate_upd (k' := k) hr hview version hv e s1 (fun a h1 h2 => ((hna a h1).2.2 hn h2).1) rep' hrr' nd'
    nd.1 (fun x hx hxr => (hF' x hx).elim (fun h => nd.2 x h hxr) (by have := hrr.lt (hrr.subset hxr); omega))
    (fun a h1 h2 => ⟨fun hx => (hF' a hx).elim ((hna a h1).2.2 hn h2).1 (by have := hr.lt (hna a h1).1; omega),
      ((hna a h1).2.2 hn h2).2⟩) (fun c => { c with left := some rl' }) rfl
  refine ⟨h2, a, Rl', Fl', em, p, e2, ?_, ?_⟩
  · intro x hx
    simp only [List.mem_cons, List.mem_append] at hx
    rcases hx with rfl | hx | hx
    · exact ha
    · exact (hF' x hx).imp_left (s1 x)
    · exact .inl (s2 x hx)
  · intro x hx
    simp only [List.mem_cons, List.mem_append] at hx
    rcases hx with rfl | hx | hx
    · exact ha.imp_left (hr.subset ·)
    · exact (hR' x hx).imp_left (s3 x)
    · exact .inl (s4 x hx)

/-- Putting a changed right child (and possibly key) under the node. -/
theorem mutate_right {h h' : Heap} {ref ht sz ver k k' l r R F Rl Fl Rr Fr val rl rr hs version rr' r'}
    (hr : Rep H c h ref (.branch ht sz ver k l r) R F) (hn : F.Nodup)
    (hview : h.view ref = some ⟨ht, sz, ver, k, val, some rl, some rr, hs⟩)
    (hrl : Rep H c h rl l Rl Fl) (s1 : ∀ x ∈ Fl, x ∈ F) (s2 : ∀ x ∈ Fr, x ∈ F) (s3 : ∀ x ∈ Rl, x ∈ R) (s4 : ∀ x ∈ Rr, x ∈ R)
    (nd : Fl.Nodup ∧ ∀ x ∈ Fl, x ∉ Fr) (hFr : ∀ x ∈ Fr, ∃ cell, h[x]? = some cell ∧ c < cell.version)
    (hna : ∀ a, ref = .ptr a → a ∈ R ∧ (c < ver → a ∈ F) ∧ (F.Nodup → c < ver → a ∉ Fl ∧ a ∉ Fr))
    (hv : c < version) (po : Post H c h Rr Fr h' rr' r') (f : Cell → Cell)
    (hf : f ⟨ht, sz, version, k, val, some rl, some rr, none⟩ = ⟨ht, sz, version, k', val, some rl, some rr', none⟩) :
    ∃ h2 a Rr' Fr', h'.mutate version c ref = some (h2, a) ∧
      Parts H c (h2.upd a f) a ht sz version k' l r' val rl rr' Rl Fl Rr' Fr' ∧
      Eff h F (h2.upd a f) ∧
      (∀ x ∈ a :: (Fl ++ Fr'), x ∈ F ∨ h.length ≤ x) ∧ (∀ x ∈ a :: (Rl ++ Rr'), x ∈ R ∨ h.length ≤ x) := by
  obtain ⟨⟨Rr', Fr', rep', nd', hF', hR'⟩, e⟩ := po
  have hrl' : Rep H c h' rl l Rl Fl := hrl.eff e fun x hx hx' =>
    nd.2 x ((hrl.mem_F x).2 ⟨hx', hFr x hx⟩) hx
  obtain ⟨h2, a, em, p, ha, e2⟩ := mutate_upd (k' := k') hr hview version hv e s2 (fun a h1 h2 => ((hna a h1).2.2 hn h2).2) hrl' rep' nd.1
    nd' (fun x hxl hx => (hF' x hx).elim (fun h => nd.2 x hxl h) (by have := hrl.lt (hrl.subset hxl); omega))
    (fun a h1 h2 => ⟨((hna a h1).2.2 hn h2).1,
      fun hx => (hF' a hx).elim ((hna a h1).2.2 hn h2).2 (by have := hr.lt (hna a h1).1; omega)⟩) f hf
  refine ⟨h2, a, Rr', Fr', em, p, e2, ?_, ?_⟩
  · intro x hx
    simp only [List.mem_cons, List.mem_append] at hx
    rcases hx with rfl | hx | hx
    · exact ha
    · exact .inl (s1 x hx)
    · exact (hF' x hx).imp_left (s2 x)
  · intro x hx
    simp only [List.mem_cons, List.mem_append] at hx
    rcases hx with rfl | hx | hx
    · exact ha.imp_left (hr.subset ·)
    · exact .inl (s3 x hx)
    · exact (hR' x hx).imp_left (s4 x)

theorem Rep.view_leaf {h ref k v ver R F} (hr : Rep H c h ref (.leaf k v ver) R F) :
    ∃ cell, h.view ref = some cell ∧ cell.height = 0 ∧ cell.key = k ∧ cell.value = v ∧ cell.size = 1 := by
  cases hr with
  | pers n => exact ⟨_, rfl, by simp [Node.asCell]⟩
  | leaf a k v ver hs h1 h2 => exact ⟨_, h1, by simp⟩

theorem setRec_heap (key : Key) (value : Val) (version : Nat) (hv : c < version) (fuel : Nat) :
    ∀ (h : Heap) (ref : Ref) (n : Node) (R F : List Nat), Rep H c h ref n R F → F.Nodup → n.Exact → n.height < fuel →
    ∃ h' a, h.setRec key value version c fuel ref = some (h', a, (n.setRec key value version).2) ∧
      Post H c h R F h' (.ptr a) (n.setRec key value version).1 := by
  induction fuel with
  | zero => intro h ref n R F _ _ _ hf; omega
  | succ fuel ih =>
    intro h ref n R F hr hn he hf
    cases n with
    | leaf k v ver =>
      obtain ⟨cell, ev, e0, e1, e2, e3⟩ := hr.view_leaf
      simp only [Heap.setRec, ev, Option.bind_eq_bind, Option.bind_some, e0, ↓reduceIte, e1]
      have hfresh : ∀ (cells : List Cell), Rep H c (h ++ Heap.leafCell key value version :: cells) (.ptr h.length)
          (.leaf key value version) [h.length] [h.length] := by
        intro cells
        have := Rep.leaf (H := H) (c := c) (h := h ++ Heap.leafCell key value version :: cells) h.length key value version none
          (by simp [Heap.leafCell]) (by simp)
        simpa [own, hv] using this
      have hlen : h.length ∉ F := fun hx => by have := hr.lt (hr.subset hx); omega
      have hlen1 : h.length + 1 ∉ F := fun hx => by have := hr.lt (hr.subset hx); omega
      by_cases c1 : key < k
      · simp only [c1, ↓reduceIte, Option.pure_def, Node.setRec]
        refine ⟨_, _, rfl, ⟨⟨(h.length + 1) :: ([h.length] ++ R), (h.length + 1) :: ([h.length] ++ F), ?_, ?_, ?_, ?_⟩, ?_⟩⟩
        · have := Rep.branch (H := H) (c := c) (h := h ++ [Heap.leafCell key value version, Heap.branchCell version k (.ptr h.length) ref])
            (h.length + 1) 1 2 version k [] (.ptr h.length) ref none _ _ _ _ _ _
            (by simp [Heap.branchCell]) (by simp) (by simp) (hfresh _) (hr.append _)
          simpa [own, hv] using this
        · simp [hlen, hlen1, hn]
        · intro x hx; simp at hx; rcases hx with rfl | rfl | hx <;> simp [*]
        · intro x hx; simp at hx; rcases hx with rfl | rfl | hx <;> simp [*]
        · simpa using Eff.append h F [_, _]
      · by_cases c2 : k < key
        · simp only [c1, c2, ↓reduceIte, Option.pure_def, Node.setRec]
          refine ⟨_, _, rfl, ⟨⟨(h.length + 1) :: (R ++ [h.length]), (h.length + 1) :: (F ++ [h.length]), ?_, ?_, ?_, ?_⟩, ?_⟩⟩
          · have := Rep.branch (H := H) (c := c) (h := h ++ [Heap.leafCell key value version, Heap.branchCell version key ref (.ptr h.length)])
              (h.length + 1) 1 2 version key [] ref (.ptr h.length) none _ _ _ _ _ _
              (by simp [Heap.branchCell]) (by simp) (by simp) (hr.append _) (hfresh _)
            simpa [own, hv] using this
          · rw [List.nodup_cons, List.nodup_append]
            refine ⟨by simp [hlen1], hn, by simp, ?_⟩
            intro x hx y hy; simp at hy; subst hy; rintro rfl; exact hlen hx
          · intro x hx; simp at hx; rcases hx with rfl | hx | rfl <;> simp [*]
          · intro x hx; simp at hx; rcases hx with rfl | hx | rfl <;> simp [*]
          · simpa using Eff.append h F [_, _]
        · simp only [c1, c2, ↓reduceIte, Option.pure_def, Node.setRec]
          obtain ⟨h1, a, em, po⟩ := mutate_leaf hr version hv value
          exact ⟨_, _, by simp [em], po⟩
    | branch ht sz ver k l r =>
      obtain ⟨hel, her, hht, -⟩ := he
      have hd1 := Node.height_eq_depth l hel
      have hd2 := Node.height_eq_depth r her
      have hne : ht ≠ 0 := by omega
      obtain ⟨val, rl, rr, hs, Rl, Fl, Rr, Fr, ev, hl, hrr, s3, s4, s1, s2, nd, hna⟩ := hr.view_branch
      obtain ⟨nl, nr, dis⟩ := nd hn
      simp only [Node.height] at hf
      simp only [Heap.setRec, ev, Option.bind_eq_bind, Option.bind_some, hne, ↓reduceIte]
      by_cases c1 : key < k
      · obtain ⟨h1, child, e1, po⟩ := ih h rl l Rl Fl hl nl hel (by omega)
        obtain ⟨h2, a, Rl', Fl', em, p, ef, q1, q2⟩ := mutate_left hr hn ev hrr s1 s2 s3 s4 ⟨nr, dis⟩
          (fun x hx => ((hl.mem_F x).1 hx).2) hna hv po
        simp only [c1, ↓reduceIte, e1, Option.bind_some, em, Node.setRec]
        cases hu : (l.setRec key value version).2 with
        | true =>
          simp only [↓reduceIte, Option.pure_def]
          exact ⟨_, _, rfl, ⟨⟨_, _, p.rep hne, p.nodup, q1, q2⟩, ef⟩⟩
        | false =>
          obtain ⟨h3, h4, a', e3, e4, po'⟩ := p.finish version hv
          simp only [Bool.false_eq_true, ↓reduceIte, e3, Option.bind_some, e4, Option.pure_def]
          exact ⟨_, _, rfl, po'.trans ef q1 q2⟩
      · obtain ⟨h1, child, e1, po⟩ := ih h rr r Rr Fr hrr nr her (by omega)
        obtain ⟨h2, a, Rr', Fr', em, p, ef, q1, q2⟩ := mutate_right (k' := k) hr hn ev hl s1 s2 s3 s4 ⟨nl, dis⟩
          (fun x hx => ((hrr.mem_F x).1 hx).2) hna hv po (fun c => { c with right := some (.ptr child) }) rfl
        simp only [c1, ↓reduceIte, e1, Option.bind_some, em, Node.setRec]
        cases hu : (r.setRec key value version).2 with
        | true =>
          simp only [↓reduceIte, Option.pure_def]
          exact ⟨_, _, rfl, ⟨⟨_, _, p.rep hne, p.nodup, q1, q2⟩, ef⟩⟩
        | false =>
          obtain ⟨h3, h4, a', e3, e4, po'⟩ := p.finish version hv
          simp only [Bool.false_eq_true, ↓reduceIte, e3, Option.bind_some, e4, Option.pure_def]
          exact ⟨_, _, rfl, po'.trans ef q1 q2⟩

end MemIAVL
