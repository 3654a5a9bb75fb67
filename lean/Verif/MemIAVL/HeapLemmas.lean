import Verif.MemIAVL.Heap
import Verif.MemIAVL.Props
/-! Helper lemmas for the heap model: representation of tree values by cells, primitives. -/
namespace MemIAVL
open Varint

variable (H : Bytes → Bytes)

/-- The cell is writable under watermark `c`. -/
def own (c ver a : Nat) : List Nat := if c < ver then [a] else []

/-- `Rep c h ref n R F`: in memory `h` the reference shows the tree value `n`; `R` are the cells reached, `F` those of
them that may be written in place under watermark `c`; cached hashes are right (proof device). -/
inductive Rep (c : Nat) (h : Heap) : Ref → Node → List Nat → List Nat → Prop
  | pers (n : Node) : Rep c h (.pers n) n [] []
  | leaf (a k v ver hs) : h[a]? = some ⟨0, 1, ver, k, v, none, none, hs⟩ →
      (∀ x, hs = some x → x = (Node.leaf k v ver).hash H) → Rep c h (.ptr a) (.leaf k v ver) [a] (own c ver a)
  | branch (a ht sz ver k val rl rr hs l r Rl Fl Rr Fr) :
      h[a]? = some ⟨ht, sz, ver, k, val, some rl, some rr, hs⟩ → ht ≠ 0 →
      (∀ x, hs = some x → x = (Node.branch ht sz ver k l r).hash H) →
      Rep c h rl l Rl Fl → Rep c h rr r Rr Fr →
      Rep c h (.ptr a) (.branch ht sz ver k l r) (a :: (Rl ++ Rr)) (own c ver a ++ (Fl ++ Fr))

variable {H}

theorem mem_own {c ver a x : Nat} : x ∈ own c ver a ↔ x = a ∧ c < ver := by
  unfold own; split <;> simp_all

theorem Rep.frame {c h h' ref n R F} (hr : Rep H c h ref n R F) (he : ∀ x ∈ R, h'[x]? = h[x]?) :
    Rep H c h' ref n R F := by
  induction hr with
  | pers n => exact .pers n
  | leaf a k v ver hs h1 h2 => exact .leaf a k v ver hs (by rw [he a (by simp), h1]) h2
  | branch a ht sz ver k val rl rr hs l r Rl Fl Rr Fr h1 h2 h3 hl hr ihl ihr =>
    exact .branch a ht sz ver k val rl rr hs l r Rl Fl Rr Fr (by rw [he a (by simp), h1]) h2 h3
      (ihl fun x hx => he x (by simp [hx])) (ihr fun x hx => he x (by simp [hx]))

theorem Rep.mem_F {c h ref n R F} (hr : Rep H c h ref n R F) (x : Nat) :
    x ∈ F ↔ x ∈ R ∧ ∃ cell, h[x]? = some cell ∧ c < cell.version := by
  induction hr with
  | pers n => simp
  | leaf a k v ver hs h1 h2 =>
    rw [mem_own]; constructor
    · rintro ⟨rfl, h⟩; exact ⟨by simp, _, h1, h⟩
    · rintro ⟨hx, cell, hc, hv⟩
      simp only [List.mem_singleton] at hx; subst hx
      rw [h1] at hc; cases hc; exact ⟨rfl, hv⟩
  | branch a ht sz ver k val rl rr hs l r Rl Fl Rr Fr h1 h2 h3 hl hr ihl ihr =>
    simp only [List.mem_append, mem_own, List.mem_cons, ihl, ihr]
    constructor
    · rintro (⟨rfl, h⟩ | ⟨h, h'⟩ | ⟨h, h'⟩)
      · exact ⟨.inl rfl, _, h1, h⟩
      · exact ⟨.inr (.inl h), h'⟩
      · exact ⟨.inr (.inr h), h'⟩
    · rintro ⟨rfl | h | h, h'⟩
      · obtain ⟨cell, hc, hv⟩ := h'
        rw [h1] at hc; cases hc; exact .inl ⟨rfl, hv⟩
      · exact .inr (.inl ⟨h, h'⟩)
      · exact .inr (.inr ⟨h, h'⟩)

theorem Rep.subset {c h ref n R F} (hr : Rep H c h ref n R F) {x : Nat} (hx : x ∈ F) : x ∈ R := ((hr.mem_F x).1 hx).1

theorem Rep.lt {c h ref n R F} (hr : Rep H c h ref n R F) {x : Nat} (hx : x ∈ R) : x < h.length := by
  induction hr with
  | pers n => simp at hx
  | leaf a k v ver hs h1 h2 =>
    simp only [List.mem_singleton] at hx; subst hx; exact (List.getElem?_eq_some_iff.1 h1).1
  | branch a ht sz ver k val rl rr hs l r Rl Fl Rr Fr h1 h2 h3 hl hr ihl ihr =>
    simp only [List.mem_cons, List.mem_append] at hx
    rcases hx with rfl | hx | hx
    · exact (List.getElem?_eq_some_iff.1 h1).1
    · exact ihl hx
    · exact ihr hx

/-- A writable cell of one part reached from another part is writable there too. -/
theorem Rep.disj {c h r1 n1 R1 F1 r2 n2 R2 F2} (h1 : Rep H c h r1 n1 R1 F1) (h2 : Rep H c h r2 n2 R2 F2)
    (hd : ∀ x ∈ F1, x ∉ F2) {x : Nat} (hx : x ∈ F1) : x ∉ R2 := by
  intro hx2
  obtain ⟨_, hc⟩ := (h1.mem_F x).1 hx
  exact hd x hx ((h2.mem_F x).2 ⟨hx2, hc⟩)

theorem Rep.not_mem {c h ref n R F} (hr : Rep H c h ref n R F) {a : Nat} {cell : Cell} (hc : h[a]? = some cell)
    (hv : c < cell.version) (ha : a ∉ F) : a ∉ R := fun h => ha ((hr.mem_F a).2 ⟨h, cell, hc, hv⟩)

theorem Rep.view {c h ref n R F} (hr : Rep H c h ref n R F) :
    ∃ cell, h.view ref = some cell ∧ cell.height = n.height ∧ cell.size = n.size ∧ cell.version = n.version ∧
      cell.key = n.key := by
  cases hr with
  | pers n => exact ⟨_, rfl, by cases n <;> simp [Node.asCell, Node.height, Node.size, Node.version, Node.key]⟩
  | leaf a k v ver hs h1 h2 => exact ⟨_, h1, by simp [Node.height, Node.size, Node.version, Node.key]⟩
  | branch a ht sz ver k val rl rr hs l r Rl Fl Rr Fr h1 h2 h3 hl hr =>
    exact ⟨_, h1, by simp [Node.height, Node.size, Node.version, Node.key]⟩

/-- Any reference to a branch, opened up. -/
theorem Rep.view_branch {c h ref ht sz ver k l r R F} (hr : Rep H c h ref (.branch ht sz ver k l r) R F) :
    ∃ val rl rr hs Rl Fl Rr Fr, h.view ref = some ⟨ht, sz, ver, k, val, some rl, some rr, hs⟩ ∧
      Rep H c h rl l Rl Fl ∧ Rep H c h rr r Rr Fr ∧ (∀ x ∈ Rl, x ∈ R) ∧ (∀ x ∈ Rr, x ∈ R) ∧
      (∀ x ∈ Fl, x ∈ F) ∧ (∀ x ∈ Fr, x ∈ F) ∧ (F.Nodup → Fl.Nodup ∧ Fr.Nodup ∧ ∀ x ∈ Fl, x ∉ Fr) ∧
      (∀ a, ref = .ptr a → a ∈ R ∧ (c < ver → a ∈ F) ∧ (F.Nodup → c < ver → a ∉ Fl ∧ a ∉ Fr)) := by
  cases hr with
  | pers n =>
    exact ⟨_, _, _, _, [], [], [], [], rfl, .pers l, .pers r, by simp, by simp, by simp, by simp, by simp, by simp⟩
  | branch a ht sz ver k val rl rr hs l r Rl Fl Rr Fr h1 h2 h3 hl hr =>
    refine ⟨_, _, _, _, Rl, Fl, Rr, Fr, h1, hl, hr, ?_, ?_, ?_, ?_, ?_, ?_⟩
    · intro x hx; simp [hx]
    · intro x hx; simp [hx]
    · intro x hx; simp [hx]
    · intro x hx; simp [hx]
    · intro hn
      rw [List.nodup_append] at hn
      obtain ⟨_, hn, _⟩ := hn
      rw [List.nodup_append] at hn
      exact ⟨hn.1, hn.2.1, fun x hx hx' => hn.2.2 x hx x hx' rfl⟩
    · rintro b ⟨rfl⟩
      refine ⟨by simp, fun hv => by simp [mem_own, hv], fun hn hv => ?_⟩
      simp only [own, hv, ↓reduceIte, List.singleton_append, List.nodup_cons, List.mem_append, not_or] at hn
      exact hn.1

/-! ### Field updates -/

theorem length_upd (h : Heap) (a f) : (h.upd a f).length = h.length := by simp [Heap.upd]

theorem upd_same {h : Heap} {a : Nat} {c : Cell} (hc : h[a]? = some c) (f) : (h.upd a f)[a]? = some (f c) := by
  simp [Heap.upd, List.getElem?_modify, hc]

theorem upd_ne {h : Heap} {a x : Nat} (hx : x ≠ a) (f) : (h.upd a f)[x]? = h[x]? := by
  simp [Heap.upd, List.getElem?_modify, Ne.symm hx]

theorem view_upd_ne {h : Heap} {a : Nat} {ref : Ref} (hx : ref ≠ .ptr a) (f) : (h.upd a f).view ref = h.view ref := by
  cases ref with
  | ptr b => exact upd_ne (by rintro rfl; exact hx rfl) f
  | pers n => rfl

theorem Rep.upd {c h ref n R F} (hr : Rep H c h ref n R F) {a : Nat} (ha : a ∉ R) (f) : Rep H c (h.upd a f) ref n R F :=
  hr.frame fun x hx => upd_ne (by rintro rfl; exact ha hx) f

/-- Only cells of `F` and new cells differ. -/
structure Eff (h : Heap) (F : List Nat) (h' : Heap) : Prop where
  len : h.length ≤ h'.length
  same : ∀ x, x < h.length → x ∉ F → h'[x]? = h[x]?

theorem Eff.refl (h F) : Eff h F h := ⟨Nat.le_refl _, fun _ _ _ => rfl⟩

theorem Eff.trans {h0 F0 h1 F1 h2} (e1 : Eff h0 F0 h1) (e2 : Eff h1 F1 h2)
    (hF : ∀ x ∈ F1, x ∈ F0 ∨ h0.length ≤ x) : Eff h0 F0 h2 := by
  refine ⟨Nat.le_trans e1.len e2.len, fun x hx hn => ?_⟩
  rw [e2.same x (by have := e1.len; omega) (fun h => by exact (hF x h).elim hn (by omega)),
    e1.same x hx hn]

theorem Eff.upd {h0 F0 h1 a} (e1 : Eff h0 F0 h1) (ha : a ∈ F0 ∨ h0.length ≤ a) (f) : Eff h0 F0 (h1.upd a f) := by
  refine ⟨by rw [length_upd]; exact e1.len, fun x hx hn => ?_⟩
  rw [upd_ne (by rintro rfl; exact ha.elim hn (by omega)), e1.same x hx hn]

theorem Eff.mono {h0 F0 F1 h1} (e1 : Eff h0 F0 h1) (hs : ∀ x ∈ F0, x ∈ F1 ∨ h0.length ≤ x) : Eff h0 F1 h1 :=
  ⟨e1.len, fun x hx hn => e1.same x hx fun h => by exact (hs x h).elim hn (by omega)⟩

theorem Rep.eff {c h ref n R F h' F0} (hr : Rep H c h ref n R F) (e : Eff h F0 h') (hd : ∀ x ∈ F0, x ∉ R) :
    Rep H c h' ref n R F :=
  hr.frame fun x hx => e.same x (hr.lt hx) fun h => hd x h hx

end MemIAVL
