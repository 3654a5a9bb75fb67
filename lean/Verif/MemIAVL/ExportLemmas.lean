import Verif.MemIAVL.ExportSpec
import Verif.MemIAVL.SnapshotLemmas2
/-! Helper lemmas for export and import. -/
namespace MemIAVL
open Varint Bytes

/-- Recursive post-order stream (proof device). -/
def Node.post : Node → List ExportNode
  | n@(.leaf ..) => [n.exported]
  | n@(.branch _ _ _ _ l r) => l.post ++ r.post ++ [n.exported]

theorem scanPostOrder_cons (n : Node) (st : List (Node × Bool)) :
    (scanPostOrder ((n, false) :: st)).map Node.exported = n.post ++ (scanPostOrder st).map Node.exported := by
  induction n generalizing st with
  | leaf => simp [scanPostOrder, Node.post]
  | branch h s ver k l r ihl ihr =>
    rw [scanPostOrder, ihl, ihr, scanPostOrder]
    simp [Node.post]

theorem Tree.export_eq (t : Tree) (n : Node) (h : t.root = some n) : t.export = n.post := by
  simp only [Tree.export, h]
  rw [scanPostOrder_cons]; simp [scanPostOrder]

variable (H : Bytes → Bytes)

theorem Importer.addAll_append (i : Importer) (xs ys : List ExportNode) :
    i.addAll H (xs ++ ys) = (i.addAll H xs).bind (fun j => j.addAll H ys) := by
  induction xs generalizing i with
  | nil => simp [Importer.addAll]
  | cons x xs ih =>
    simp only [Importer.addAll, List.cons_append, Option.bind_eq_bind]
    cases i.add H x with
    | none => rfl
    | some j => simp [ih]

theorem two_get0 {α : Type} (xs : List α) (a b : α) : (xs ++ [a] ++ [b])[xs.length]? = some a := by simp
theorem two_get1 {α : Type} (xs : List α) (a b : α) : (xs ++ [a] ++ [b])[xs.length + 1]? = some b := by
  rw [List.getElem?_append_right (by simp)]; simp
theorem two_take {α : Type} (xs : List α) (a b : α) : (xs ++ [a] ++ [b]).take xs.length = xs := by simp

/-- Importing the stream of a subtree does what the snapshot writer does on it, and leaves it pending. -/
theorem Importer.addAll_post (n : Node) (he : n.Exact) (hv : ∀ v ∈ n.versions, v < 2 ^ 32) (i : Importer)
    (h1 : i.leavesStack.length = i.w.leafCounter - i.w.branchCounter) (h2 : i.nodeStack.length = i.leavesStack.length)
    (h3 : i.w.branchCounter ≤ i.w.leafCounter) :
    i.addAll H n.post = some
      { w := i.w.writeRecursive H n
        leavesStack := i.leavesStack ++ [i.w.leafCounter + n.nl]
        nodeStack := i.nodeStack ++ [{ size := n.size, hash := n.hash H }] } := by
  induction n generalizing i with
  | leaf k v ver =>
    simp only [Node.versions, List.mem_singleton, forall_eq] at hv
    have : ¬ ver ≥ 2 ^ 32 := by omega
    simp [Node.post, Importer.addAll, Importer.add, Node.exported, this, Writer.writeRecursive, Writer.writeLeaf, Node.size]
  | branch h s ver k l r ihl ihr =>
    obtain ⟨hl, hr, hh, hs⟩ := he
    simp only [Node.versions, List.mem_cons, List.mem_append, forall_eq_or_imp] at hv
    have hlp := l.nl_pos; have hrp := r.nl_pos
    have il := ihl hl (fun v h => hv.2 v (.inl h)) i h1 h2 h3
    simp only [Node.post]
    rw [Importer.addAll_append, Importer.addAll_append, il, Option.bind_some, ihr hr (fun v h => hv.2 v (.inr h)) _
      (by simp [writeRecursive_eq]; omega) (by simp; omega) (by simp [writeRecursive_eq]; omega), Option.bind_some]
    have hver : ¬ ver ≥ 2 ^ 32 := by have := hv.1; omega
    have hn0 : h ≠ 0 := by omega
    have hsz : l.size + r.size = s := by rw [Node.size_eq_length l hl, Node.size_eq_length r hr, hs]
    simp only [Importer.addAll, Importer.add, Node.exported, hver, hn0, ↓reduceIte, List.length_append,
      List.length_singleton]
    rw [if_neg (by omega)]
    have e1 : i.leavesStack.length + 1 + 1 - 2 = i.leavesStack.length := by omega
    have e2 : i.nodeStack.length + 1 + 1 - 2 = i.nodeStack.length := by omega
    have e3 : i.nodeStack.length + 1 + 1 - 1 = i.nodeStack.length + 1 := by omega
    simp only [e1, e2, e3]
    simp only [two_get0, two_get1, two_take, Option.bind_eq_bind, Option.bind_some, Option.pure_def, hsz]
    simp only [Option.some.injEq, Importer.mk.injEq]
    refine ⟨?_, ?_, ?_⟩
    · rw [Writer.writeRecursive]
      simp only [Node.hash]
      have e4 : i.nodeStack.length % 256 = (i.w.leafCounter - i.w.branchCounter) % 256 := by rw [h2, h1]
      have e5 : i.w.leafCounter + l.nl = (i.w.writeRecursive H l).leafCounter := by rw [writeRecursive_eq]
      rw [e4, e5]
    · simp [writeRecursive_eq, Writer.writeBranch]; omega
    · simp only [Node.hash]; rfl

/-! ### Snapshot export -/

variable (hlen : ∀ x, (H x).length = 32)

theorem Snap.exportLeaves_add (s : Snap) (j a b : Nat) :
    s.exportLeaves j (a + b) =
      (s.exportLeaves j a).bind fun xs => (s.exportLeaves (j + a) b).bind fun ys => some (xs ++ ys) := by
  induction a generalizing j with
  | zero => simp [Snap.exportLeaves]
  | succ a ih =>
    have e : a + 1 + b = (a + b) + 1 := by omega
    rw [e]
    simp only [Snap.exportLeaves, Option.bind_eq_bind, ih, Option.pure_def]
    have e2 : j + 1 + a = j + (a + 1) := by omega
    rw [e2]
    cases s.exportLeaf j <;> simp
    cases s.exportLeaves (j + 1) a <;> simp
    cases s.exportLeaves (j + (a + 1)) b <;> simp

include hlen in
theorem Located.exportLeaf {s lc bc off k v ver} (hl : Located H s lc bc off (.leaf k v ver))
    (hf : (Node.leaf k v ver).Fits) (hoff : off < 2 ^ 64) :
    s.exportLeaf lc = some (Node.leaf k v ver).exported := by
  obtain ⟨e0, e1, e2, _⟩ := hl.leaf_fields H hlen hf hoff
  obtain ⟨a, c, h3, h3'⟩ := hl.kvs
  simp only [encKV] at h3
  have s0 : slice s.kvs off 4 = some (le 4 k.length) :=
    slice_of (a := a) (c := k ++ le 4 v.length ++ v ++ c) (by rw [h3]; simp) (by simp [h3']) (by simp)
  have s1 : slice s.kvs (off + 4) k.length = some k :=
    slice_of (a := a ++ le 4 k.length) (c := le 4 v.length ++ v ++ c) (by rw [h3]; simp) (by simp [h3']) rfl
  have s2 : slice s.kvs (off + 4 + k.length) 4 = some (le 4 v.length) :=
    slice_of (a := a ++ le 4 k.length ++ k) (c := v ++ c) (by rw [h3]; simp) (by simp [h3']; omega) (by simp)
  have s3 : slice s.kvs (off + 4 + k.length + 4) v.length = some v :=
    slice_of (a := a ++ le 4 k.length ++ k ++ le 4 v.length) (c := c) (by rw [h3]; simp) (by simp [h3']; omega) rfl
  obtain ⟨_, f2, f3⟩ := hf
  simp [Snap.exportLeaf, Snap.keyValue, e0, e2, s0, unle_le 4 k.length (by omega), s1, s2,
    unle_le 4 v.length (by omega), s3, Node.exported]

include hlen in
theorem Located.exportBranches {s lc bc off n} (hl : Located H s lc bc off n) (hf : n.Fits) (he : n.Exact)
    (ho : n.Ordered) (hb : Bounds lc bc off n) (j : Nat) (X : List ExportNode) (hX : s.exportLeaves j (lc - j) = some X)
    (hj1 : bc ≤ j) (hj2 : j ≤ lc) :
    ∃ A j' Y, (∀ rest, s.exportBranches bc j (j - bc) (n.nl - 1 + rest) =
        (s.exportBranches (bc + n.nl - 1) j' (j' - (bc + n.nl - 1)) rest).map (A ++ ·)) ∧
      s.exportLeaves j' (lc + n.nl - j') = some Y ∧ A ++ Y = X ++ n.post ∧ j' ≤ lc + n.nl ∧ bc + n.nl - 1 ≤ j' ∧
      (n.nl ≠ 1 → j' = lc + n.nl) := by
  induction n generalizing lc bc off j X with
  | leaf k v ver =>
    refine ⟨[], j, X ++ [(Node.leaf k v ver).exported], ?_, ?_, by simp [Node.post], by simp; omega, by simp; omega, by simp⟩
    · intro rest; simp
    · have hoff : off < 2 ^ 64 := by have := hb.off; simp [encKV] at this; omega
      have e : lc + (Node.leaf k v ver).nl - j = (lc - j) + 1 := by simp; omega
      have e2 : j + (lc - j) = lc := by omega
      rw [e, Snap.exportLeaves_add, hX, e2]
      simp [Snap.exportLeaves, hl.exportLeaf H hlen hf hoff]
  | branch h sz ver k l r ihl ihr =>
    have hlp := l.nl_pos; have hrp := r.nl_pos
    obtain ⟨A1, j1, Y1, q1, q2, q3, q4, q5, _⟩ := ihl (hl.left H) hf.2.2.1 he.1 ho.1 hb.left j X hX hj1 hj2
    obtain ⟨A2, j2, Y2, p1, p2, p3, p4, p5, _⟩ := ihr (hl.right H hlen) hf.2.2.2 he.2.1 ho.2.1 hb.right j1 Y1 q2 q5 q4
    obtain ⟨f1, f2, f3, f4, f5, f6, _, _⟩ := hl.fields H hlen hf he hb
    have hkey : s.leafKey (lc + l.nl) = some k := by
      have := ((hl.right H hlen).leafAt H hlen hf.2.2.2 hb.right.off 0 hrp).1
      rw [Nat.add_zero] at this
      rw [this]; exact congrArg some (head_isMin ho.2.1 ho.2.2.2.1 ho.2.2.2.2 hrp)
    have ei : bc + l.nl - 1 + r.nl - 1 = bc + l.nl + r.nl - 2 := by omega
    rw [ei] at p5
    simp only [Node.nl_branch]
    refine ⟨A1 ++ (A2 ++ (Y2 ++ [(Node.branch h sz ver k l r).exported])), lc + (l.nl + r.nl), [], ?_, ?_, ?_, ?_, ?_, ?_⟩
    · intro rest
      have e1 : l.nl + r.nl - 1 + rest = l.nl - 1 + (r.nl - 1 + (rest + 1)) := by omega
      rw [e1, q1, p1, ei, Snap.exportBranches]
      have hle := hb.le
      have em : lc - bc + 2 - (j2 - (bc + l.nl + r.nl - 2)) = lc + l.nl + r.nl - j2 := by omega
      have ej : j2 + (lc + l.nl + r.nl - j2) = lc + (l.nl + r.nl) := by omega
      have ep : j2 - (bc + l.nl + r.nl - 2) + (lc + l.nl + r.nl - j2) - 1 =
          lc + (l.nl + r.nl) - (bc + (l.nl + r.nl) - 1) := by omega
      have ei2 : bc + l.nl + r.nl - 2 + 1 = bc + (l.nl + r.nl) - 1 := by omega
      simp only [f2, Option.bind_eq_bind, Option.bind_some, em, p2, f1, f3, f5, hkey, ej, ep, ei2, Option.pure_def]
      cases s.exportBranches (bc + (l.nl + r.nl) - 1) (lc + (l.nl + r.nl))
        (lc + (l.nl + r.nl) - (bc + (l.nl + r.nl) - 1)) rest with
      | none => rfl
      | some z => simp [Node.exported]
    · simp [Snap.exportLeaves]
    · have : A2 ++ Y2 = Y1 ++ r.post := p3
      simp only [Node.post, List.append_nil]
      rw [← List.append_assoc A2, this, List.append_assoc Y1, ← List.append_assoc A1, q3]
      simp
    · omega
    · have := hb.le; omega
    · intro _; rfl

include hlen in
theorem export_writeSnapshot (ver : Nat) (n : Node) (hf : n.Fits) (hw : n.WF) (hb : Bounds 0 0 0 n) :
    (Tree.writeSnapshot H { version := ver, root := some n }).export = some n.post := by
  have hl := located_writeSnapshot H ver n
  generalize hs : Tree.writeSnapshot H { version := ver, root := some n } = s at *
  have hp := n.nl_pos
  have h1 : s.nodesLen = n.nl - 1 := by
    simp [Snap.nodesLen, ← hs, Tree.writeSnapshot, writeRecursive_eq, Writer.new, encB_length H hlen, sizeNode]
  have h2 : s.leavesLen = n.nl := by
    simp [Snap.leavesLen, ← hs, Tree.writeSnapshot, writeRecursive_eq, Writer.new, encL_length H hlen, sizeLeaf]
  unfold Snap.export
  rw [h1, h2, if_neg (by omega)]
  by_cases hn : n.nl = 1
  · rw [if_pos hn]
    cases n with
    | leaf k v ver =>
      have hoff : 0 < 2 ^ 64 := by omega
      obtain ⟨e0, _, _, _⟩ := hl.leaf_fields H hlen hf hoff
      obtain ⟨_, g2⟩ := hl.leafKV H hlen hf hoff
      simp [e0, g2, Node.post, Node.exported]
    | branch h sz v k l r => have := l.nl_pos; have := r.nl_pos; simp at hn; omega
  · rw [if_neg hn]
    obtain ⟨A, j', Y, q1, q2, q3, q4, q5, q6⟩ := hl.exportBranches H hlen hf hw.exact hw.ordered hb 0 []
      (by simp [Snap.exportLeaves]) (by omega) (by omega)
    have hj := q6 hn
    have hY : Y = [] := by
      rw [hj] at q2; simp [Snap.exportLeaves] at q2; exact q2
    have := q1 0
    simp only [Nat.add_zero, Nat.sub_self] at this
    rw [this, Snap.exportBranches]
    simp only [Option.map_some, List.append_nil]
    rw [hY] at q3; simpa using q3

/-! ### Which streams the importer accepts -/

/-- The importer's stack length only. -/
def accept (k : Nat) : List ExportNode → Option Nat
  | [] => some k
  | e :: es =>
    if e.version ≥ 2 ^ 32 then none
    else if e.height = 0 then accept (k + 1) es
    else if k < 2 then none else accept (k - 1) es

theorem addAll_accept (ns : List ExportNode) (i : Importer) (h : i.nodeStack.length = i.leavesStack.length) :
    (i.addAll H ns).map (fun j => j.leavesStack.length) = accept i.leavesStack.length ns := by
  induction ns generalizing i with
  | nil => simp [Importer.addAll, accept]
  | cons e es ih =>
    simp only [Importer.addAll, accept, Importer.add]
    by_cases h1 : e.version ≥ 2 ^ 32
    · simp [h1]
    · by_cases h2 : e.height = 0
      · simp only [if_neg h1, h2, if_true, Option.bind_eq_bind, Option.bind_some]
        rw [ih _ (by simp [h])]; simp
      · by_cases h3 : i.leavesStack.length < 2
        · simp [h1, h2, h3]
        · have h4 : ¬ i.nodeStack.length < 2 := by omega
          simp only [if_neg h1, if_neg h2, h3, h4, or_self, if_false, Option.bind_eq_bind]
          obtain ⟨a, ha⟩ : ∃ a, i.leavesStack[i.leavesStack.length - 2]? = some a :=
            ⟨_, List.getElem?_eq_getElem (by omega)⟩
          obtain ⟨b, hb⟩ : ∃ a, i.nodeStack[i.nodeStack.length - 2]? = some a :=
            ⟨_, List.getElem?_eq_getElem (by omega)⟩
          obtain ⟨c, hc⟩ : ∃ a, i.nodeStack[i.nodeStack.length - 1]? = some a :=
            ⟨_, List.getElem?_eq_getElem (by omega)⟩
          simp only [ha, hb, hc, Option.bind_some, Option.pure_def]
          rw [ih _ (by simp; omega)]
          congr 1; simp; omega

theorem doImport_ne_none (ns : List ExportNode) : doImport H ns ≠ none ↔ ∃ k, accept 0 ns = some k ∧ k ≤ 1 := by
  have := addAll_accept H ns { w := Writer.new, leavesStack := [], nodeStack := [] } rfl
  simp only [doImport, Option.bind_eq_bind]
  rw [← show accept ([] : List Nat).length ns = accept 0 ns from rfl, ← this]
  cases Importer.addAll H { w := Writer.new, leavesStack := [], nodeStack := [] } ns with
  | none => simp
  | some i => by_cases h : i.leavesStack.length ≤ 1 <;> simp [h]

theorem accept_append (xs ys : List ExportNode) (k : Nat) : accept k (xs ++ ys) = (accept k xs).bind (accept · ys) := by
  induction xs generalizing k with
  | nil => simp [accept]
  | cons x xs ih => simp only [List.cons_append, accept]; split <;> (try rfl); split <;> (try exact ih _); split <;> (try rfl); exact ih _

theorem accept_postOrder {ns : List ExportNode} (h : PostOrder ns) (hv : ∀ e ∈ ns, e.version < 2 ^ 32) (k : Nat) :
    accept k ns = some (k + 1) := by
  induction h generalizing k with
  | leaf e h =>
    have := hv e (by simp)
    have h' : ¬ e.version ≥ 2 ^ 32 := by omega
    simp only [accept, if_neg h', h, if_true]
  | branch l r e h hl hr ihl ihr =>
    have := hv e (by simp)
    have h' : ¬ e.version ≥ 2 ^ 32 := by omega
    rw [accept_append, accept_append, ihl (fun x hx => hv x (by simp [hx]))]
    simp only [Option.bind_some]
    rw [ihr (fun x hx => hv x (by simp [hx]))]
    simp only [Option.bind_some, accept, if_neg h', if_neg h, if_neg (show ¬ k + 1 + 1 < 2 by omega)]; rfl

theorem accept_forest {ns : List ExportNode} {k : Nat} (h : accept 0 ns = some k) :
    (∀ e ∈ ns, e.version < 2 ^ 32) ∧ ∃ fs : List (List ExportNode), fs.length = k ∧ fs.flatten = ns ∧ ∀ f ∈ fs, PostOrder f := by
  rw [← List.reverse_reverse ns] at h ⊢
  generalize ns.reverse = ms at h ⊢
  induction ms generalizing k with
  | nil => simp only [List.reverse_nil, accept, Option.some.injEq] at h; subst h; exact ⟨by simp, [], rfl, rfl, by simp⟩
  | cons e es ih =>
    simp only [List.reverse_cons, accept_append] at h ⊢
    obtain ⟨j, hj, h⟩ := Option.bind_eq_some_iff.1 h
    obtain ⟨hv, fs, rfl, h2, h3⟩ := ih hj
    simp only [accept] at h
    by_cases h1 : e.version ≥ 2 ^ 32
    · simp only [if_pos h1] at h; cases h
    rw [if_neg h1] at h
    refine ⟨fun x hx => ?_, ?_⟩
    · rcases List.mem_append.1 hx with hx | hx
      · exact hv x hx
      · simp only [List.mem_singleton] at hx; subst hx; omega
    by_cases hh : e.height = 0
    · rw [if_pos hh] at h; cases h
      exact ⟨fs ++ [[e]], by simp, by simp [h2], fun f hf => by
        rcases List.mem_append.1 hf with hf | hf
        · exact h3 f hf
        · simp only [List.mem_singleton] at hf; subst hf; exact .leaf e hh⟩
    · rw [if_neg hh] at h
      by_cases hk : fs.length < 2
      · simp only [if_pos hk] at h; cases h
      rw [if_neg hk] at h; cases h
      obtain ⟨gs, a, b, rfl⟩ : ∃ gs a b, fs = gs ++ [a, b] := by
        refine ⟨fs.take (fs.length - 2), fs[fs.length - 2], fs[fs.length - 1], ?_⟩
        apply List.ext_getElem
        · simp; omega
        · intro i h4 h5
          rw [List.getElem_append]
          split
          · simp
          · rename_i hi; simp at hi
            have : i = fs.length - 2 ∨ i = fs.length - 1 := by omega
            rcases this with rfl | rfl
            · simp
            · have e1 : fs.length - 1 - (min (fs.length - 2) fs.length) = 1 := by omega
              have e2 : fs.length - 1 - (fs.length - 2) = 1 := by omega
              simp [e2]
      refine ⟨gs ++ [a ++ b ++ [e]], by simp, ?_, ?_⟩
      · rw [← h2]; simp
      · intro f hf
        rcases List.mem_append.1 hf with hf | hf
        · exact h3 f (by simp [hf])
        · simp only [List.mem_singleton] at hf; subst hf
          exact .branch a b e hh (h3 a (by simp)) (h3 b (by simp))

end MemIAVL
