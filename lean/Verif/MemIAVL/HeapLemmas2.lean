import Verif.MemIAVL.HeapLemmas
/-! Helper lemmas for the heap model: rotations and rebalancing. -/
set_option linter.unusedSimpArgs false
set_option linter.unusedVariables false
namespace MemIAVL
open Varint

variable {H : Bytes → Bytes} {c : Nat}

/-- A writable branch cell with its two represented children (proof device). -/
structure Own (H : Bytes → Bytes) (c : Nat) (h : Heap) (a : Nat) (ht sz ver : Nat) (k : Key) (l r : Node)
    (R F : List Nat) where
  ex : ∃ val rl rr Rl Fl Rr Fr, h[a]? = some ⟨ht, sz, ver, k, val, some rl, some rr, none⟩ ∧
    Rep H c h rl l Rl Fl ∧ Rep H c h rr r Rr Fr ∧ R = a :: (Rl ++ Rr) ∧ F = a :: (Fl ++ Fr)
  nodup : F.Nodup
  ver : c < ver

/-- Unfolded form of `Own`. -/
structure Parts (H : Bytes → Bytes) (c : Nat) (h : Heap) (a : Nat) (ht sz ver : Nat) (k : Key) (l r : Node)
    (val : Val) (rl rr : Ref) (Rl Fl Rr Fr : List Nat) : Prop where
  cell : h[a]? = some ⟨ht, sz, ver, k, val, some rl, some rr, none⟩
  repl : Rep H c h rl l Rl Fl
  repr : Rep H c h rr r Rr Fr
  nodl : Fl.Nodup
  nodr : Fr.Nodup
  alr : ∀ x ∈ Fl, x ∉ Fr
  na : a ∉ Fl ∧ a ∉ Fr
  ver : c < ver

theorem Parts.nal {h a ht sz ver k l r val rl rr Rl Fl Rr Fr}
    (p : Parts H c h a ht sz ver k l r val rl rr Rl Fl Rr Fr) : a ∉ Rl :=
  p.repl.not_mem p.cell p.ver p.na.1

theorem Parts.nar {h a ht sz ver k l r val rl rr Rl Fl Rr Fr}
    (p : Parts H c h a ht sz ver k l r val rl rr Rl Fl Rr Fr) : a ∉ Rr :=
  p.repr.not_mem p.cell p.ver p.na.2

theorem Parts.rep {h a ht sz ver k l r val rl rr Rl Fl Rr Fr}
    (p : Parts H c h a ht sz ver k l r val rl rr Rl Fl Rr Fr) (h0 : ht ≠ 0) :
    Rep H c h (.ptr a) (.branch ht sz ver k l r) (a :: (Rl ++ Rr)) (a :: (Fl ++ Fr)) := by
  have := Rep.branch a ht sz ver k val rl rr none l r Rl Fl Rr Fr p.cell h0 (by simp) p.repl p.repr
  simpa [own, p.ver] using this

theorem Parts.nodup {h a ht sz ver k l r val rl rr Rl Fl Rr Fr}
    (p : Parts H c h a ht sz ver k l r val rl rr Rl Fl Rr Fr) : (a :: (Fl ++ Fr)).Nodup := by
  rw [List.nodup_cons, List.nodup_append]
  exact ⟨by simp [p.na], p.nodl, p.nodr, fun x hx y hy e => p.alr x hx (e ▸ hy)⟩

/-- Writing fields of the cell itself. -/
theorem Parts.updSelf {h a ht sz ver k l r val rl rr Rl Fl Rr Fr}
    (p : Parts H c h a ht sz ver k l r val rl rr Rl Fl Rr Fr) (ht' sz' k' val') (f)
    (hf : f ⟨ht, sz, ver, k, val, some rl, some rr, none⟩ = ⟨ht', sz', ver, k', val', some rl, some rr, none⟩) :
    Parts H c (h.upd a f) a ht' sz' ver k' l r val' rl rr Rl Fl Rr Fr :=
  ⟨by rw [upd_same p.cell, hf], p.repl.upd p.nal f, p.repr.upd p.nar f, p.nodl, p.nodr, p.alr, p.na, p.ver⟩

theorem Parts.updateHeightSize {h a ht sz ver k l r val rl rr Rl Fl Rr Fr}
    (p : Parts H c h a ht sz ver k l r val rl rr Rl Fl Rr Fr) :
    ∃ f, h.updateHeightSize a = some (h.upd a f) ∧
      Parts H c (h.upd a f) a (max l.height r.height + 1) (l.size + r.size) ver k l r val rl rr Rl Fl Rr Fr := by
  obtain ⟨cl, el, hl1, hl2, _⟩ := p.repl.view
  obtain ⟨cr, er, hr1, hr2, _⟩ := p.repr.view
  refine ⟨fun c => { c with height := max cl.height cr.height + 1, size := cl.size + cr.size }, ?_, ?_⟩
  · simp [Heap.updateHeightSize, p.cell, el, er]
  · rw [← hl1, ← hl2, ← hr1, ← hr2]
    exact p.updSelf _ _ _ _ _ rfl

/-- `Mutate` of a branch. -/
theorem mutate_branch {h ref ht sz ver k l r R F} (hr : Rep H c h ref (.branch ht sz ver k l r) R F) (hn : F.Nodup)
    (version : Nat) (hv : c < version) :
    ∃ h' b val rl rr Rl Fl Rr Fr, h.mutate version c ref = some (h', b) ∧
      Parts H c h' b ht sz version k l r val rl rr Rl Fl Rr Fr ∧
      (∃ cell, h'.view ref = some cell ∧ cell.left = some rl ∧ cell.right = some rr) ∧
      (b ∈ F ∨ b = h.length) ∧ (∀ x ∈ Fl, x ∈ F) ∧ (∀ x ∈ Fr, x ∈ F) ∧
      (∀ x ∈ Rl, x ∈ R) ∧ (∀ x ∈ Rr, x ∈ R) ∧
      h.length ≤ h'.length ∧ (∀ x, x < h.length → x ≠ b → h'[x]? = h[x]?) := by
  have happ : ∀ (x : Nat) (cell : Cell), x < h.length → (h ++ [cell])[x]? = h[x]? := fun x cell hx =>
    List.getElem?_append_left hx
  cases hr with
  | pers n =>
    refine ⟨h ++ [{ (Node.branch ht sz ver k l r).asCell with version }], h.length, [], .pers l, .pers r,
      [], [], [], [], rfl, ⟨?_, .pers l, .pers r, by simp, by simp, by simp, by simp, hv⟩, ⟨_, rfl, rfl, rfl⟩, .inr rfl, by simp,
      by simp, by simp, by simp, by simp, fun x hx _ => happ x _ hx⟩
    simp [Node.asCell]
  | branch a ht sz ver k val rl rr hs l r Rl Fl Rr Fr h1 h2 h3 hl hr =>
    have hal : a < h.length := (List.getElem?_eq_some_iff.1 h1).1
    rw [List.nodup_append, List.nodup_append] at hn
    obtain ⟨_, ⟨n1, n2, n3⟩, n4⟩ := hn
    have n3' : ∀ x ∈ Fl, x ∉ Fr := fun x hx hx' => n3 x hx x hx' rfl
    by_cases hcv : ver ≤ c
    · refine ⟨h ++ [⟨ht, sz, version, k, val, some rl, some rr, none⟩], h.length, val, rl, rr, Rl, Fl, Rr, Fr, ?_,
        ⟨by simp, hl.frame fun x hx => happ x _ (hl.lt hx), hr.frame fun x hx => happ x _ (hr.lt hx), n1, n2, n3', ?_, hv⟩,
        ⟨⟨ht, sz, ver, k, val, some rl, some rr, hs⟩, ?_, rfl, rfl⟩, .inr rfl,
        fun x hx => by simp [hx], fun x hx => by simp [hx], fun x hx => by simp [hx], fun x hx => by simp [hx],
        by simp, fun x hx _ => happ x _ hx⟩
      · simp [Heap.mutate, h1, hcv]
      · exact ⟨fun h => by have := hl.lt (hl.subset h); omega, fun h => by have := hr.lt (hr.subset h); omega⟩
      · simp only [Heap.view]; rw [happ _ _ hal, h1]
    · have hcv' : c < ver := by omega
      have ha : a ∉ Fl ∧ a ∉ Fr := by
        constructor <;> intro hx <;> exact n4 a (by simp [mem_own, hcv']) a (by simp [hx]) rfl
      refine ⟨h.upd a (fun c => { c with version, hash := none }), a, val, rl, rr, Rl, Fl, Rr, Fr, ?_,
        ⟨by rw [upd_same h1], hl.upd (hl.not_mem h1 hcv' ha.1) _, hr.upd (hr.not_mem h1 hcv' ha.2) _, n1, n2, n3', ha, hv⟩,
        ⟨⟨ht, sz, version, k, val, some rl, some rr, none⟩, ?_, rfl, rfl⟩, .inl (by simp [mem_own, hcv']),
        fun x hx => by simp [hx], fun x hx => by simp [hx], fun x hx => by simp [hx], fun x hx => by simp [hx],
        by simp [length_upd], fun x hx hne => upd_ne hne _⟩
      · simp [Heap.mutate, h1, hcv]
      · simp only [Heap.view]; rw [upd_same h1]

/-- Outcome of an operation that started with the cells `R`, `F` in memory `h0`. -/
structure Post (H : Bytes → Bytes) (c : Nat) (h0 : Heap) (R0 F0 : List Nat) (h : Heap) (ref : Ref) (n : Node) : Prop where
  ex : ∃ R F, Rep H c h ref n R F ∧ F.Nodup ∧ (∀ x ∈ F, x ∈ F0 ∨ h0.length ≤ x) ∧ (∀ x ∈ R, x ∈ R0 ∨ h0.length ≤ x)
  eff : Eff h0 F0 h

theorem rotateRight_spec {h a ht sz ver k lh ls lver lk ll lr r val rl rr Rl Fl Rr Fr}
    (p : Parts H c h a ht sz ver k (.branch lh ls lver lk ll lr) r val rl rr Rl Fl Rr Fr)
    (version : Nat) (hv : c < version) :
    ∃ h' a', h.rotateRight version c a = some (h', a') ∧
      Post H c h (a :: (Rl ++ Rr)) (a :: (Fl ++ Fr)) h' (.ptr a') (Node.mk version lk ll (Node.mk ver k lr r)) := by
  have hal : a < h.length := (List.getElem?_eq_some_iff.1 p.cell).1
  obtain ⟨h1, b, val', rll, rlr, Rll, Fll, Rlr, Flr, em, pb, ⟨cell, ev, _, ecr⟩, hb, s1, s2, s3, s4, hlen, hsame⟩ :=
    mutate_branch p.repl p.nodl version hv
  have hab : a ≠ b := by
    rcases hb with hb | hb
    · rintro rfl; exact p.na.1 hb
    · omega
  have hbRr : b ∉ Rr := by
    rcases hb with hb | hb
    · exact p.repl.disj p.repr p.alr hb
    · intro h; have := p.repr.lt h; omega
  have hca : h1[a]? = _ := (hsame a hal hab).trans p.cell
  have hrr1 : Rep H c h1 rr r Rr Fr := p.repr.frame fun x hx => hsame x (p.repr.lt hx) (by rintro rfl; exact hbRr hx)
  -- children of the old left child do not contain `a`
  have naRll : a ∉ Rll := fun h => p.nal (s3 a h)
  have naRlr : a ∉ Rlr := fun h => p.nal (s4 a h)
  have dlr : ∀ x ∈ Flr, x ∉ Fr := fun x hx => p.alr x (s2 x hx)
  have dll : ∀ x ∈ Fll, x ∉ Fr := fun x hx => p.alr x (s1 x hx)
  have hbFr : b ∉ Fr := fun h => hbRr (p.repr.subset h)
  -- after `node.left = node.left.Right()`
  let h2 := h1.upd a (fun c => { c with left := cell.right })
  have pa2 : Parts H c h2 a ht sz ver k lr r val rlr rr Rlr Flr Rr Fr :=
    ⟨by simp only [h2]; rw [upd_same hca, ecr], pb.repr.upd naRlr _, hrr1.upd p.nar _, pb.nodr, p.nodr, dlr,
      ⟨fun h => p.na.1 (s2 a h), p.na.2⟩, p.ver⟩
  have cb2 : h2[b]? = _ := (upd_ne (Ne.symm hab) _).trans pb.cell
  have rll2 : Rep H c h2 rll ll Rll Fll := pb.repl.upd naRll _
  -- after `newSelf.right = node`
  let h3 := h2.upd b (fun c => { c with right := some (.ptr a) })
  have cb3 : h3[b]? = some ⟨lh, ls, version, lk, val', some rll, some (.ptr a), none⟩ := upd_same cb2 _
  have pa3 : Parts H c h3 a ht sz ver k lr r val rlr rr Rlr Flr Rr Fr :=
    ⟨(upd_ne hab _).trans pa2.cell, pa2.repl.upd pb.nar _, pa2.repr.upd hbRr _, pa2.nodl, pa2.nodr, pa2.alr, pa2.na, pa2.ver⟩
  have rll3 : Rep H c h3 rll ll Rll Fll := rll2.upd pb.nal _
  obtain ⟨f4, e4, pa4⟩ := pa3.updateHeightSize
  have cb4 : (h3.upd a f4)[b]? = _ := (upd_ne (Ne.symm hab) _).trans cb3
  have rll4 : Rep H c (h3.upd a f4) rll ll Rll Fll := rll3.upd naRll _
  have pb4 : Parts H c (h3.upd a f4) b lh ls version lk ll (Node.mk ver k lr r) val' rll (.ptr a) Rll Fll
      (a :: (Rlr ++ Rr)) (a :: (Flr ++ Fr)) := by
    refine ⟨cb4, rll4, pa4.rep (by omega), pb.nodl, pa4.nodup, ?_, ?_, hv⟩
    · intro x hx
      simp only [List.mem_cons, List.mem_append, not_or]
      exact ⟨by rintro rfl; exact p.na.1 (s1 _ hx), pb.alr x hx, dll x hx⟩
    · refine ⟨pb.na.1, ?_⟩
      simp only [List.mem_cons, List.mem_append, not_or]
      exact ⟨Ne.symm hab, pb.na.2, hbFr⟩
  obtain ⟨f5, e5, pb5⟩ := pb4.updateHeightSize
  refine ⟨_, b, ?_, ⟨_, _, pb5.rep (by omega), pb5.nodup, ?_, ?_⟩, ?_⟩
  · simp only [Heap.rotateRight, p.cell, Option.bind_eq_bind, Option.bind_some, em, ev, Option.pure_def]
    simp only [h3, h2] at e4
    rw [e4]; simp only [Option.bind_some]; simp only [h3, h2] at e5; rw [e5]; simp [h3, h2]
  · intro x hx
    simp only [List.mem_cons, List.mem_append] at hx ⊢
    rcases hx with rfl | hx | rfl | hx | hx
    · rcases hb with hb | hb
      · exact .inl (.inr (.inl hb))
      · right; omega
    · exact .inl (.inr (.inl (s1 x hx)))
    · simp
    · exact .inl (.inr (.inl (s2 x hx)))
    · exact .inl (.inr (.inr hx))
  · intro x hx
    simp only [List.mem_cons, List.mem_append] at hx ⊢
    rcases hx with rfl | hx | rfl | hx | hx
    · rcases hb with hb | hb
      · exact .inl (.inr (.inl (p.repl.subset hb)))
      · right; omega
    · exact .inl (.inr (.inl (s3 x hx)))
    · simp
    · exact .inl (.inr (.inl (s4 x hx)))
    · exact .inl (.inr (.inr hx))
  · have hbF : b ∈ a :: (Fl ++ Fr) ∨ h.length ≤ b := by
      rcases hb with hb | hb
      · left; simp [hb]
      · right; omega
    have e1 : Eff h (a :: (Fl ++ Fr)) h1 := ⟨hlen, fun x hx hn => hsame x hx fun e => by
      rcases hbF with h | h
      · exact hn (e ▸ h)
      · omega⟩
    exact (((e1.upd (.inl (by simp)) _).upd hbF _).upd (.inl (by simp)) _).upd hbF _

theorem rotateLeft_spec {h a ht sz ver k rh rs rver rk rl' rr' l val rl rr Rl Fl Rr Fr}
    (p : Parts H c h a ht sz ver k l (.branch rh rs rver rk rl' rr') val rl rr Rl Fl Rr Fr)
    (version : Nat) (hv : c < version) :
    ∃ h' a', h.rotateLeft version c a = some (h', a') ∧
      Post H c h (a :: (Rl ++ Rr)) (a :: (Fl ++ Fr)) h' (.ptr a') (Node.mk version rk (Node.mk ver k l rl') rr') := by
  have hal : a < h.length := (List.getElem?_eq_some_iff.1 p.cell).1
  obtain ⟨h1, b, val', rrl, rrr, Rrl, Frl, Rrr, Frr, em, pb, ⟨cell, ev, ecl, _⟩, hb, s1, s2, s3, s4, hlen, hsame⟩ :=
    mutate_branch p.repr p.nodr version hv
  have hab : a ≠ b := by
    rcases hb with hb | hb
    · rintro rfl; exact p.na.2 hb
    · omega
  have alr' : ∀ x ∈ Fr, x ∉ Fl := fun x hx hx' => p.alr x hx' hx
  have hbRl : b ∉ Rl := by
    rcases hb with hb | hb
    · exact p.repr.disj p.repl alr' hb
    · intro h; have := p.repl.lt h; omega
  have hca : h1[a]? = _ := (hsame a hal hab).trans p.cell
  have hrl1 : Rep H c h1 rl l Rl Fl := p.repl.frame fun x hx => hsame x (p.repl.lt hx) (by rintro rfl; exact hbRl hx)
  have naRrl : a ∉ Rrl := fun h => p.nar (s3 a h)
  have naRrr : a ∉ Rrr := fun h => p.nar (s4 a h)
  have drl : ∀ x ∈ Fl, x ∉ Frl := fun x hx h => p.alr x hx (s1 x h)
  have drr : ∀ x ∈ Fl, x ∉ Frr := fun x hx h => p.alr x hx (s2 x h)
  have hbFl : b ∉ Fl := fun h => hbRl (p.repl.subset h)
  let h2 := h1.upd a (fun c => { c with right := cell.left })
  have pa2 : Parts H c h2 a ht sz ver k l rl' val rl rrl Rl Fl Rrl Frl :=
    ⟨by simp only [h2]; rw [upd_same hca, ecl], hrl1.upd p.nal _, pb.repl.upd naRrl _, p.nodl, pb.nodl, drl,
      ⟨p.na.1, fun h => p.na.2 (s1 a h)⟩, p.ver⟩
  have cb2 : h2[b]? = _ := (upd_ne (Ne.symm hab) _).trans pb.cell
  have rrr2 : Rep H c h2 rrr rr' Rrr Frr := pb.repr.upd naRrr _
  let h3 := h2.upd b (fun c => { c with left := some (.ptr a) })
  have cb3 : h3[b]? = some ⟨rh, rs, version, rk, val', some (.ptr a), some rrr, none⟩ := upd_same cb2 _
  have pa3 : Parts H c h3 a ht sz ver k l rl' val rl rrl Rl Fl Rrl Frl :=
    ⟨(upd_ne hab _).trans pa2.cell, pa2.repl.upd hbRl _, pa2.repr.upd pb.nal _, pa2.nodl, pa2.nodr, pa2.alr, pa2.na, pa2.ver⟩
  have rrr3 : Rep H c h3 rrr rr' Rrr Frr := rrr2.upd pb.nar _
  obtain ⟨f4, e4, pa4⟩ := pa3.updateHeightSize
  have cb4 : (h3.upd a f4)[b]? = _ := (upd_ne (Ne.symm hab) _).trans cb3
  have rrr4 : Rep H c (h3.upd a f4) rrr rr' Rrr Frr := rrr3.upd naRrr _
  have pb4 : Parts H c (h3.upd a f4) b rh rs version rk (Node.mk ver k l rl') rr' val' (.ptr a) rrr
      (a :: (Rl ++ Rrl)) (a :: (Fl ++ Frl)) Rrr Frr := by
    refine ⟨cb4, pa4.rep (by omega), rrr4, pa4.nodup, pb.nodr, ?_, ?_, hv⟩
    · intro x hx
      simp only [List.mem_cons, List.mem_append] at hx
      rcases hx with rfl | hx | hx
      · exact fun h => p.na.2 (s2 _ h)
      · exact drr x hx
      · exact pb.alr x hx
    · refine ⟨?_, pb.na.2⟩
      simp only [List.mem_cons, List.mem_append, not_or]
      exact ⟨Ne.symm hab, hbFl, pb.na.1⟩
  obtain ⟨f5, e5, pb5⟩ := pb4.updateHeightSize
  refine ⟨_, b, ?_, ⟨_, _, pb5.rep (by omega), pb5.nodup, ?_, ?_⟩, ?_⟩
  · simp only [Heap.rotateLeft, p.cell, Option.bind_eq_bind, Option.bind_some, em, ev, Option.pure_def]
    simp only [h3, h2] at e4
    rw [e4]; simp only [Option.bind_some]; simp only [h3, h2] at e5; rw [e5]; simp [h3, h2]
  · intro x hx
    simp only [List.mem_cons, List.mem_append] at hx ⊢
    rcases hx with rfl | (rfl | hx | hx) | hx
    · rcases hb with hb | hb
      · exact .inl (.inr (.inr hb))
      · right; omega
    · simp
    · exact .inl (.inr (.inl hx))
    · exact .inl (.inr (.inr (s1 x hx)))
    · exact .inl (.inr (.inr (s2 x hx)))
  · intro x hx
    simp only [List.mem_cons, List.mem_append] at hx ⊢
    rcases hx with rfl | (rfl | hx | hx) | hx
    · rcases hb with hb | hb
      · exact .inl (.inr (.inr (p.repr.subset hb)))
      · right; omega
    · simp
    · exact .inl (.inr (.inl hx))
    · exact .inl (.inr (.inr (s3 x hx)))
    · exact .inl (.inr (.inr (s4 x hx)))
  · have hbF : b ∈ a :: (Fl ++ Fr) ∨ h.length ≤ b := by
      rcases hb with hb | hb
      · left; simp [hb]
      · right; omega
    have e1 : Eff h (a :: (Fl ++ Fr)) h1 := ⟨hlen, fun x hx hn => hsame x hx fun e => by
      rcases hbF with h | h
      · exact hn (e ▸ h)
      · omega⟩
    exact (((e1.upd (.inl (by simp)) _).upd hbF _).upd (.inl (by simp)) _).upd hbF _

end MemIAVL
