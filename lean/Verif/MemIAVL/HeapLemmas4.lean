import Verif.MemIAVL.HeapLemmas3
/-! Helper lemmas for the heap model: `removeRecursive`, lookup, hashing, watermarks. -/
set_option linter.unusedSimpArgs false
set_option linter.unusedVariables false
namespace MemIAVL
open Varint

variable {H : Bytes → Bytes} {c : Nat}

theorem removeRec_heap (key : Key) (version : Nat) (hv : c < version) (fuel : Nat) :
    ∀ (h : Heap) (ref : Ref) (n : Node) (R F : List Nat), Rep H c h ref n R F → F.Nodup → n.Exact → n.height < fuel →
    ∃ h' ref', h.removeRec key version c fuel ref =
        some (h', (n.removeRec key version).1, ref', (n.removeRec key version).2.2) ∧
      ((n.removeRec key version).1 = none → h' = h) ∧ Eff h F h' ∧
      ((n.removeRec key version).2.1 = none → ref' = none) ∧
      ∀ m, (n.removeRec key version).2.1 = some m → ∃ rf, ref' = some rf ∧ Post H c h R F h' rf m := by
  induction fuel with
  | zero => intro h ref n R F _ _ _ hf; omega
  | succ fuel ih =>
    intro h ref n R F hr hn he hf
    have same : ∀ m, some n = some m → ∃ rf, some ref = some rf ∧ Post H c h R F h rf m := by
      rintro m ⟨rfl⟩
      exact ⟨ref, rfl, ⟨⟨R, F, hr, hn, fun x hx => .inl hx, fun x hx => .inl hx⟩, Eff.refl _ _⟩⟩
    cases n with
    | leaf k v ver =>
      obtain ⟨cell, ev, e0, e1, e2, e3⟩ := hr.view_leaf
      simp only [Heap.removeRec, ev, Option.bind_eq_bind, Option.bind_some, e0, ↓reduceIte, e1, Node.removeRec]
      by_cases c1 : k = key
      · simp only [c1, ↓reduceIte, Option.pure_def, e2]
        exact ⟨h, none, rfl, by simp, Eff.refl _ _, by simp, by simp⟩
      · simp only [c1, ↓reduceIte, Option.pure_def]
        exact ⟨h, some ref, rfl, by simp, Eff.refl _ _, by simp, same⟩
    | branch ht sz ver k l r =>
      obtain ⟨hel, her, hht, -⟩ := he
      have hd1 := Node.height_eq_depth l hel
      have hd2 := Node.height_eq_depth r her
      have hne : ht ≠ 0 := by omega
      obtain ⟨val, rl, rr, hs, Rl, Fl, Rr, Fr, ev, hl, hrr, s3, s4, s1, s2, nd, hna⟩ := hr.view_branch
      obtain ⟨nl, nr, dis⟩ := nd hn
      simp only [Node.height] at hf
      simp only [Heap.removeRec, ev, Option.bind_eq_bind, Option.bind_some, hne, ↓reduceIte]
      by_cases c1 : key < k
      · obtain ⟨h1, ref1, e1, q1, ef, q2, q3⟩ := ih h rl l Rl Fl hl nl hel (by omega)
        simp only [c1, ↓reduceIte, e1, Option.bind_some, Node.removeRec]
        have efF : Eff h F h1 := ef.mono fun x hx => .inl (s1 x hx)
        match hres : l.removeRec key version with
        | (none, _, _) =>
          simp only [hres, forall_const] at q1
          subst q1
          simp only [hres, Option.pure_def]
          exact ⟨_, _, rfl, fun _ => rfl, Eff.refl _ _, by simp, same⟩
        | (some v, none, _) =>
          simp only [hres, forall_const] at q2
          subst q2
          simp only [hres, Option.pure_def]
          refine ⟨h1, some rr, rfl, by simp, efF, by simp, ?_⟩
          rintro m ⟨rfl⟩
          exact ⟨rr, rfl, ⟨_, _, hrr.eff ef fun x hx => hl.disj hrr dis hx, nr, fun x hx => .inl (s2 x hx), fun x hx => .inl (s4 x hx)⟩, efF⟩
        | (some v, some l', nk) =>
          obtain ⟨rf, rfl, po⟩ := q3 l' (by simp [hres])
          obtain ⟨h2, a, Rl', Fl', em, p, ef2, t1, t2⟩ := mutate_left hr hn ev hrr s1 s2 s3 s4 ⟨nr, dis⟩
            (fun x hx => ((hl.mem_F x).1 hx).2) hna hv po
          obtain ⟨h3, h4, a', e3, e4, po'⟩ := p.finish version hv
          simp only [hres, em, Option.bind_some, e3, e4, Option.pure_def]
          refine ⟨h4, some (.ptr a'), rfl, by simp, ef2.trans po'.eff t1, by simp, ?_⟩
          rintro m ⟨rfl⟩
          exact ⟨_, rfl, po'.trans ef2 t1 t2⟩
      · obtain ⟨h1, ref1, e1, q1, ef, q2, q3⟩ := ih h rr r Rr Fr hrr nr her (by omega)
        simp only [c1, ↓reduceIte, e1, Option.bind_some, Node.removeRec]
        have efF : Eff h F h1 := ef.mono fun x hx => .inl (s2 x hx)
        match hres : r.removeRec key version with
        | (none, _, _) =>
          simp only [hres, forall_const] at q1
          subst q1
          simp only [hres, Option.pure_def]
          exact ⟨_, _, rfl, fun _ => rfl, Eff.refl _ _, by simp, same⟩
        | (some v, none, _) =>
          simp only [hres, forall_const] at q2
          subst q2
          simp only [hres, Option.pure_def]
          refine ⟨h1, some rl, rfl, by simp, efF, by simp, ?_⟩
          rintro m ⟨rfl⟩
          exact ⟨rl, rfl, ⟨_, _, hl.eff ef fun x hx => hrr.disj hl (fun x hx hx' => dis x hx' hx) hx, nl,
            fun x hx => .inl (s1 x hx), fun x hx => .inl (s3 x hx)⟩, efF⟩
        | (some v, some r', nk) =>
          obtain ⟨rf, rfl, po⟩ := q3 r' (by simp [hres])
          obtain ⟨h2, a, Rr', Fr', em, p, ef2, t1, t2⟩ := mutate_right (k' := nk.getD k) hr hn ev hl s1 s2 s3 s4 ⟨nl, dis⟩
            (fun x hx => ((hrr.mem_F x).1 hx).2) hna hv po (fun c => { c with right := some rf, key := nk.getD c.key }) rfl
          obtain ⟨h3, h4, a', e3, e4, po'⟩ := p.finish version hv
          simp only [hres, em, Option.bind_some, e3, e4, Option.pure_def]
          refine ⟨h4, some (.ptr a'), rfl, by simp, ef2.trans po'.eff t1, by simp, ?_⟩
          rintro m ⟨rfl⟩
          exact ⟨_, rfl, po'.trans ef2 t1 t2⟩

theorem get_heap (key : Key) (fuel : Nat) :
    ∀ (h : Heap) (ref : Ref) (n : Node) (R F : List Nat), Rep H c h ref n R F → n.Exact → n.height < fuel →
    h.get key fuel ref = some (n.get key) := by
  induction fuel with
  | zero => intro h ref n R F _ _ hf; omega
  | succ fuel ih =>
    intro h ref n R F hr he hf
    cases hr with
    | pers n => rfl
    | leaf a k v ver hs h1 h2 =>
      simp only [Heap.get, h1, Option.bind_eq_bind, Option.bind_some, ↓reduceIte, Node.get, Option.pure_def]
      repeat' split
      all_goals rfl
    | branch a ht sz ver k val rl rr hs l r Rl Fl Rr Fr h1 h2 h3 hl hr =>
      obtain ⟨hel, her, hht, -⟩ := he
      have hd1 := Node.height_eq_depth l hel
      have hd2 := Node.height_eq_depth r her
      simp only [Node.height] at hf
      obtain ⟨cr, er, -, hsz, -⟩ := hr.view
      simp only [Heap.get, h1, Option.bind_eq_bind, Option.bind_some, h2, ↓reduceIte, Node.get, Option.pure_def]
      split
      · exact ih h rl l Rl Fl hl hel (by omega)
      · rw [ih h rr r Rr Fr hr her (by omega)]
        simp [er, hsz]

theorem Rep.functional {h ref n R F} (h1 : Rep H c h ref n R F) {c' n' R' F'} (h2 : Rep H c' h ref n' R' F') : n = n' := by
  induction h1 generalizing n' R' F' with
  | pers n => cases h2; rfl
  | leaf a k v ver hs h1 _ =>
    cases h2 with
    | leaf _ _ _ _ _ h2 _ => rw [h1] at h2; cases h2; rfl
    | branch _ _ _ _ _ _ _ _ _ _ _ _ _ _ _ h2 _ _ _ => rw [h1] at h2; cases h2
  | branch a ht sz ver k val rl rr hs l r Rl Fl Rr Fr h1 _ _ _ _ ihl ihr =>
    cases h2 with
    | leaf _ _ _ _ _ h2 _ => rw [h1] at h2; cases h2
    | branch _ _ _ _ _ _ _ _ _ _ _ _ _ _ _ h2 _ _ hl hr =>
      rw [h1] at h2; cases h2
      rw [ihl hl, ihr hr]

/-- Everything represented stays represented. -/
def Keeps (H : Bytes → Bytes) (h h' : Heap) : Prop :=
  ∀ c ref n R F, Rep H c h ref n R F → Rep H c h' ref n R F

/-- Storing a correct hash keeps everything. -/
theorem Rep.cache {h a n0 R0 F0} (h0 : Rep H c h (.ptr a) n0 R0 F0) :
    Keeps H h (h.upd a (fun c => { c with hash := some (n0.hash H) })) := by
  intro c' ref n R F hr
  induction hr with
  | pers n => exact .pers n
  | leaf b k v ver hs h1 h2 =>
    by_cases hb : b = a
    · subst hb
      have := (Rep.leaf (c := c') b k v ver hs h1 h2).functional h0
      exact .leaf b k v ver _ (by rw [upd_same h1]) (by rintro x ⟨rfl⟩; rw [this])
    · exact .leaf b k v ver hs (by rw [upd_ne hb, h1]) h2
  | branch b ht sz ver k val rl rr hs l r Rl Fl Rr Fr h1 h2 h3 hl hr ihl ihr =>
    by_cases hb : b = a
    · subst hb
      have := (Rep.branch (c := c') b ht sz ver k val rl rr hs l r Rl Fl Rr Fr h1 h2 h3 hl hr).functional h0
      exact .branch b ht sz ver k val rl rr _ l r Rl Fl Rr Fr (by rw [upd_same h1]) h2 (by rintro x ⟨rfl⟩; rw [this]) ihl ihr
    · exact .branch b ht sz ver k val rl rr hs l r Rl Fl Rr Fr (by rw [upd_ne hb, h1]) h2 h3 ihl ihr

theorem hash_heap (fuel : Nat) :
    ∀ (h : Heap) (ref : Ref) (n : Node) (R F : List Nat), Rep H c h ref n R F → n.Exact → n.height < fuel →
    ∃ h', h.hash H fuel ref = some (h', n.hash H) ∧ Keeps H h h' := by
  induction fuel with
  | zero => intro h ref n R F _ _ hf; omega
  | succ fuel ih =>
    intro h ref n R F hr he hf
    have hr0 := hr
    cases hr with
    | pers n => exact ⟨h, rfl, fun _ _ _ _ _ => id⟩
    | leaf a k v ver hs h1 h2 =>
      simp only [Heap.hash, h1, Option.bind_eq_bind, Option.bind_some, ↓reduceIte, Option.pure_def]
      cases hs with
      | some x => rw [h2 x rfl]; exact ⟨h, rfl, fun _ _ _ _ _ => id⟩
      | none => exact ⟨_, rfl, hr0.cache⟩
    | branch a ht sz ver k val rl rr hs l r Rl Fl Rr Fr h1 h2 h3 hl hr =>
      obtain ⟨hel, her, hht, -⟩ := he
      have hd1 := Node.height_eq_depth l hel
      have hd2 := Node.height_eq_depth r her
      simp only [Node.height] at hf
      simp only [Heap.hash, h1, Option.bind_eq_bind, Option.bind_some, h2, ↓reduceIte, Option.pure_def]
      cases hs with
      | some x => rw [h3 x rfl]; exact ⟨h, rfl, fun _ _ _ _ _ => id⟩
      | none =>
        obtain ⟨h', e1, k1⟩ := ih h rl l Rl Fl hl hel (by omega)
        obtain ⟨h'', e2, k2⟩ := ih h' rr r Rr Fr (k1 _ _ _ _ _ hr) her (by omega)
        simp only [e1, e2, Option.bind_some]
        exact ⟨_, rfl, fun c ref n R F hx => (k2 _ _ _ _ _ (k1 _ _ _ _ _ hr0)).cache c ref n R F (k2 _ _ _ _ _ (k1 _ _ _ _ _ hx))⟩

/-! ### Node versions -/

namespace Node

/-- No node of the tree is younger than `b`. -/
def VerLe (b : Nat) : Node → Prop
  | leaf _ _ ver => ver ≤ b
  | branch _ _ ver _ l r => ver ≤ b ∧ l.VerLe b ∧ r.VerLe b

theorem VerLe.mono {b b' : Nat} (hb : b ≤ b') {n : Node} (h : n.VerLe b) : n.VerLe b' := by
  induction n with
  | leaf => simp only [VerLe] at *; omega
  | branch _ _ _ _ _ _ ihl ihr => exact ⟨by have := h.1; omega, ihl h.2.1, ihr h.2.2⟩

theorem VerLe.rotateRight {b v : Nat} (hv : v ≤ b) {n : Node} (h : n.VerLe b) : (Node.rotateRight v n).VerLe b := by
  unfold Node.rotateRight
  split
  · simp only [VerLe, mk] at *; simp_all
  · exact h

theorem VerLe.rotateLeft {b v : Nat} (hv : v ≤ b) {n : Node} (h : n.VerLe b) : (Node.rotateLeft v n).VerLe b := by
  unfold Node.rotateLeft
  split
  · simp only [VerLe, mk] at *; simp_all
  · exact h

theorem VerLe.setVersion {b v : Nat} (hv : v ≤ b) {n : Node} (h : n.VerLe b) : (n.setVersion v).VerLe b := by
  cases n <;> simp_all [Node.setVersion, VerLe]

theorem VerLe.reBalance {b v : Nat} (hv : v ≤ b) {n : Node} (h : n.VerLe b) : (Node.reBalance v n).VerLe b := by
  cases n with
  | leaf => exact h
  | branch ht s ver k l r =>
    have hl := VerLe.rotateLeft hv (VerLe.setVersion hv h.2.1)
    have hr := VerLe.rotateRight hv (VerLe.setVersion hv h.2.2)
    simp only [Node.reBalance]
    repeat' split
    · exact h.rotateRight hv
    · exact VerLe.rotateRight hv ⟨h.1, hl, h.2.2⟩
    · exact h.rotateLeft hv
    · exact VerLe.rotateLeft hv ⟨h.1, h.2.1, hr⟩
    · exact h

theorem VerLe.setRec {b v : Nat} (hv : v ≤ b) (key value) {n : Node} (h : n.VerLe b) :
    (n.setRec key value v).1.VerLe b := by
  induction n with
  | leaf k v' ver =>
    simp only [Node.setRec]
    repeat' split
    all_goals simp_all [VerLe]
  | branch ht s ver k l r ihl ihr =>
    have ihl := ihl h.2.1
    have ihr := ihr h.2.2
    simp only [Node.setRec]
    repeat' split
    · exact ⟨hv, ihl, h.2.2⟩
    · exact VerLe.reBalance (n := mk _ _ _ _) hv ⟨hv, ihl, h.2.2⟩
    · exact ⟨hv, h.2.1, ihr⟩
    · exact VerLe.reBalance (n := mk _ _ _ _) hv ⟨hv, h.2.1, ihr⟩

theorem VerLe.removeRec {b v : Nat} (hv : v ≤ b) (key) {n : Node} (h : n.VerLe b) :
    ∀ m, (n.removeRec key v).2.1 = some m → m.VerLe b := by
  induction n with
  | leaf k v' ver =>
    simp only [Node.removeRec]
    split <;> simp
    exact h
  | branch ht s ver k l r ihl ihr =>
    have ihl := ihl h.2.1
    have ihr := ihr h.2.2
    simp only [Node.removeRec]
    split
    · match hres : l.removeRec key v with
      | (none, _, _) => rintro m ⟨rfl⟩; exact h
      | (some _, none, _) => rintro m ⟨rfl⟩; exact h.2.2
      | (some _, some l', _) =>
        rintro m ⟨rfl⟩; exact VerLe.reBalance hv ⟨hv, ihl l' (by simp [hres]), h.2.2⟩
    · match hres : r.removeRec key v with
      | (none, _, _) => rintro m ⟨rfl⟩; exact h
      | (some _, none, _) => rintro m ⟨rfl⟩; exact h.2.1
      | (some _, some r', _) =>
        rintro m ⟨rfl⟩; exact VerLe.reBalance hv ⟨hv, h.2.1, ihr r' (by simp [hres])⟩

end Node

/-- Raising the watermark over all node versions makes every cell read-only. -/
theorem Rep.freeze {h ref n R F c'} (hr : Rep H c h ref n R F) (hv : n.VerLe c') : Rep H c' h ref n R [] := by
  induction hr with
  | pers n => exact .pers n
  | leaf a k v ver hs h1 h2 =>
    have := Rep.leaf (c := c') a k v ver hs h1 h2
    have e : own c' ver a = [] := by simp only [Node.VerLe] at hv; simp [own, hv]
    rwa [e] at this
  | branch a ht sz ver k val rl rr hs l r Rl Fl Rr Fr h1 h2 h3 hl hr ihl ihr =>
    have := Rep.branch (c := c') a ht sz ver k val rl rr hs l r Rl [] Rr [] h1 h2 h3 (ihl hv.2.1) (ihr hv.2.2)
    have e : own c' ver a = [] := by have := hv.1; simp [own, this]
    rwa [e] at this

end MemIAVL
