import Verif.MemIAVL.SnapshotLemmas
import Verif.MemIAVL.SnapshotSpec
/-! Helper lemmas for memiavl snapshots, second part. -/
namespace MemIAVL
open Varint Bytes

variable (H : Bytes → Bytes) (hlen : ∀ x, (H x).length = 32)

theorem encKV_length (n : Node) : (encKV n).length = kvBytes n.toList := by
  induction n with
  | leaf k v ver => simp [encKV, kvBytes, Node.toList]; omega
  | branch h s ver k l r ihl ihr => simp [encKV, kvBytes, Node.toList, ihl, ihr]

theorem Node.fits_of (n : Node) (he : n.Exact) (hd : n.depth < 256) (hv : ∀ v ∈ n.versions, v < 2 ^ 32)
    (hl : ∀ p ∈ n.toList, p.1.length < 2 ^ 32 ∧ p.2.length < 2 ^ 32) : n.Fits := by
  induction n with
  | leaf k v ver =>
    simp only [Node.versions, Node.toList, List.mem_singleton, forall_eq] at hv hl
    exact ⟨hv, hl.1, hl.2⟩
  | branch h s ver k l r ihl ihr =>
    obtain ⟨el, er, eh, _⟩ := he
    simp only [Node.depth] at hd
    simp only [Node.versions, List.mem_cons, List.mem_append, forall_eq_or_imp] at hv
    simp only [Node.toList, List.mem_append] at hl
    exact ⟨by omega, hv.1, ihl el (by omega) (fun v h => hv.2 v (.inl h)) (fun p h => hl p (.inl h)),
      ihr er (by omega) (fun v h => hv.2 v (.inr h)) (fun p h => hl p (.inr h))⟩

theorem Node.depth_lt (n : Node) (hb : n.Balanced) (hs : n.toList.length < 2 ^ 32) : n.depth < 64 := by
  have h1 := Node.fib_le_of_balanced n hb
  have h2 := fib_pow n.depth
  apply Classical.byContradiction; intro hc
  have : 2 ^ 32 ≤ 2 ^ (n.depth / 2) := Nat.pow_le_pow_right (by omega) (by omega)
  omega

/-- The reference under which a node written at counters `lc`, `bc` is found. -/
def refOf (lc bc : Nat) : Node → PRef
  | .leaf .. => ⟨true, lc⟩
  | n@(.branch ..) => ⟨false, bc + n.nl - 2⟩

theorem refOf_of_one {lc bc : Nat} {n : Node} (h : n.nl = 1) : refOf lc bc n = ⟨true, lc⟩ := by
  cases n with
  | leaf => rfl
  | branch _ _ _ _ l r => have := l.nl_pos; have := r.nl_pos; simp at h; omega

theorem refOf_of_ne_one {lc bc : Nat} {n : Node} (h : n.nl ≠ 1) : refOf lc bc n = ⟨false, bc + n.nl - 2⟩ := by
  cases n with
  | leaf => simp at h
  | branch _ _ _ _ l r => rfl

theorem refOf_branch {lc bc h sz ver k l r} :
    refOf lc bc (.branch h sz ver k l r) = ⟨false, bc + l.nl + r.nl - 2⟩ := by
  simp only [refOf, Node.nl_branch, Nat.add_assoc]

/-- Counter bounds under which nothing wraps. -/
structure Bounds (lc bc off : Nat) (n : Node) : Prop where
  le : bc ≤ lc
  pre : lc - bc + n.depth < 256
  leaves : lc + n.nl < 2 ^ 32
  off : off + (encKV n).length ≤ 2 ^ 64

theorem Bounds.left {lc bc off h sz ver k l r} (hb : Bounds lc bc off (.branch h sz ver k l r)) :
    Bounds lc bc off l := by
  obtain ⟨h1, h2, h3, h4⟩ := hb
  simp only [Node.depth, Node.nl_branch, encKV, List.length_append] at *
  exact ⟨h1, by omega, by omega, by omega⟩

theorem Bounds.right {lc bc off h sz ver k l r} (hb : Bounds lc bc off (.branch h sz ver k l r)) :
    Bounds (lc + l.nl) (bc + l.nl - 1) (off + (encKV l).length) r := by
  obtain ⟨h1, h2, h3, h4⟩ := hb
  have := l.nl_pos
  simp only [Node.depth, Node.nl_branch, encKV, List.length_append] at *
  exact ⟨by omega, by omega, by omega, by omega⟩

theorem head_isMin {n : Node} (ho : n.Ordered) {k : Key} (h1 : ∀ p ∈ n.toList, k ≤ p.1) (h2 : ∃ p ∈ n.toList, p.1 = k)
    (h0 : 0 < n.toList.length) : n.toList[0].1 = k := by
  obtain ⟨p, hp, rfl⟩ := h2
  have hs := Node.sorted_toList n ho
  have h3 := h1 n.toList[0] (List.getElem_mem _)
  obtain ⟨i, hi, rfl⟩ := List.getElem_of_mem hp
  cases i with
  | zero => rfl
  | succ i =>
    have := List.pairwise_iff_getElem.1 hs 0 (i + 1) h0 hi (by omega)
    grind

theorem mod32 {a : Nat} (h : a < 2 ^ 32) : a % 2 ^ 32 = a := Nat.mod_eq_of_lt h

theorem pred32 {a : Nat} (h : 0 < a) (h' : a < 2 ^ 32) : (a + 2 ^ 32 - 1) % 2 ^ 32 = a - 1 := by omega

theorem succ32 {a b : Nat} (h : a + 1 < 2 ^ 32) (h' : a + 1 = b) : (a + 1) % 2 ^ 32 = b := by omega

theorem succ32_ne {a b : Nat} (h : a + 1 < 2 ^ 32) (h' : a + 1 ≠ b) : (a + 1) % 2 ^ 32 ≠ b := by omega

theorem getLeftBranch_eq {a b : Nat} (h : b + 2 ≤ a) (h' : a < 2 ^ 32) : Snap.getLeftBranch a b = a - b - 2 := by
  unfold Snap.getLeftBranch; omega

theorem getStartLeaf_eq {i sz pre : Nat} (h : sz ≤ i + 2) (h' : i + 2 + pre < 2 ^ 32) :
    Snap.getStartLeaf i sz pre = i + 2 - sz + pre := by
  unfold Snap.getStartLeaf; omega

include hlen in
/-- The whole-branch record, with sizes in terms of leaf counts. -/
theorem Located.fields {s lc bc off h sz ver k l r} (hl : Located H s lc bc off (.branch h sz ver k l r))
    (hf : (Node.branch h sz ver k l r).Fits) (he : (Node.branch h sz ver k l r).Exact)
    (hb : Bounds lc bc off (.branch h sz ver k l r)) :
    let i := bc + l.nl + r.nl - 2
    s.nodeHeight i = some h ∧ s.nodePreTrees i = some (lc - bc) ∧ s.nodeVersion i = some ver ∧
    s.nodeSize i = some (l.nl + r.nl) ∧ s.nodeKeyLeaf i = some (lc + l.nl) ∧
    s.nodeHash i = some ((Node.branch h sz ver k l r).hash H) ∧
    Snap.getStartLeaf i (l.nl + r.nl) (lc - bc) = lc ∧ Snap.getEndLeaf i (lc - bc) = lc + l.nl + r.nl - 1 := by
  intro i
  have hsz : sz = l.nl + r.nl := he.2.2.2
  obtain ⟨h1, h2, h3, h4⟩ := hb
  simp only [Node.depth, Node.nl_branch] at h2 h3
  have hr := r.nl_pos; have hll := l.nl_pos
  obtain ⟨f1, f2, f3, f4, f5, f6⟩ := hl.branch_fields H hlen hf (by omega) (by omega) (by omega)
  refine ⟨f1, f2, f3, by rw [f4, hsz], f5, f6, ?_, ?_⟩
  · rw [getStartLeaf_eq (by omega) (by omega)]; omega
  · unfold Snap.getEndLeaf
    rw [mod32 (by omega)]; omega

theorem leftRef_pos {a b c : Nat} (h : (a + 1) % 2 ^ 32 = b) : Snap.leftRef a b c = ⟨true, a⟩ := if_pos h

theorem leftRef_neg {a b c : Nat} (h : (a + 1) % 2 ^ 32 ≠ b) :
    Snap.leftRef a b c = ⟨false, Snap.getLeftBranch b c⟩ := if_neg h

/-- Not a `rfl` lemma on purpose: keeps the kernel from evaluating both sides. -/
theorem bind_some' {α β : Type} (a : α) (f : α → Option β) : (some a >>= f) = f a := by
  cases h : f a <;> simp [h]

theorem getByIndex_eq {s : Snap} {i pre sz j : Nat} (h1 : s.nodePreTrees i = some pre) (h2 : s.nodeSize i = some sz) :
    s.getByIndex ⟨false, i⟩ j =
      s.leafUpTo ((Snap.getStartLeaf i sz pre + j) % 2 ^ 32) (Snap.getEndLeaf i pre) := by
  unfold Snap.getByIndex
  rw [if_neg Bool.false_ne_true, h1, bind_some', h2, bind_some']

include hlen in
theorem Located.children {s lc bc off h sz ver k l r} (hl : Located H s lc bc off (.branch h sz ver k l r))
    (hf : (Node.branch h sz ver k l r).Fits) (he : (Node.branch h sz ver k l r).Exact)
    (hb : Bounds lc bc off (.branch h sz ver k l r)) :
    s.left (refOf lc bc (.branch h sz ver k l r)) = some (refOf lc bc l) ∧
    s.right (refOf lc bc (.branch h sz ver k l r)) = some (refOf (lc + l.nl) (bc + l.nl - 1) r) := by
  obtain ⟨_, f2, _, f4, f5, _, fs, fe⟩ := hl.fields H hlen hf he hb
  obtain ⟨h1, h2, h3, h4⟩ := hb
  simp only [Node.depth, Node.nl_branch] at h2 h3
  have hr := r.nl_pos; have hll := l.nl_pos
  constructor
  · simp only [refOf_branch, Snap.left, f2, f4, f5, fs, Bool.false_eq_true, ↓reduceIte,
      Option.bind_eq_bind, Option.bind_some, Option.pure_def]
    by_cases hl1 : l.nl = 1
    · rw [leftRef_pos (succ32 (by omega) (by omega)), refOf_of_one hl1]
    · rw [leftRef_neg (succ32_ne (by omega) (by omega)), refOf_of_ne_one hl1]
      rw [getLeftBranch_eq (by omega) (by omega)]
      have e : lc + l.nl - (lc - bc) - 2 = bc + l.nl - 2 := by omega
      rw [e]
  · simp only [refOf_branch, Snap.right, f2, f5, fe, Bool.false_eq_true, ↓reduceIte,
      Option.bind_eq_bind, Option.bind_some, Option.pure_def]
    by_cases hr1 : r.nl = 1
    · rw [if_pos (by omega), refOf_of_one hr1]
    · rw [if_neg (by omega), refOf_of_ne_one hr1]
      rw [pred32 (by omega) (by omega)]
      have e : bc + l.nl + r.nl - 2 - 1 = bc + l.nl - 1 + r.nl - 2 := by omega
      rw [e]

include hlen in
theorem Located.reads {s lc bc off n} (hl : Located H s lc bc off n) (hf : n.Fits) (he : n.Exact) (ho : n.Ordered)
    (hb : Bounds lc bc off n) : Reads H s (refOf lc bc n) n := by
  induction n generalizing lc bc off with
  | leaf k v ver =>
    have hoff : off < 2 ^ 64 := by have := hb.off; simp [encKV] at this; omega
    obtain ⟨f1, _, _, f4⟩ := hl.leaf_fields H hlen hf hoff
    obtain ⟨g1, g2⟩ := hl.leafKV H hlen hf hoff
    simp [Reads, refOf, Snap.height, Snap.size, Snap.version, Snap.key, Snap.value, Snap.hash, f1, f4, g1, g2]
  | branch h sz ver k l r ihl ihr =>
    obtain ⟨c1, c2⟩ := hl.children H hlen hf he hb
    obtain ⟨f1, f2, f3, f4, f5, f6, _, _⟩ := hl.fields H hlen hf he hb
    have hsz : sz = l.nl + r.nl := he.2.2.2
    have hkey : s.leafKey (lc + l.nl) = some k := by
      have h0 := r.nl_pos
      have := ((hl.right H hlen).leafAt H hlen hf.2.2.2 hb.right.off 0 h0).1
      rw [Nat.add_zero] at this
      rw [this]; exact congrArg some (head_isMin ho.2.1 ho.2.2.2.1 ho.2.2.2.2 h0)
    refine ⟨rfl, ?_, ?_, ?_, ?_, ?_, ⟨_, c1, ihl (hl.left H) hf.2.2.1 he.1 ho.1 hb.left⟩,
      ⟨_, c2, ihr (hl.right H hlen) hf.2.2.2 he.2.1 ho.2.1 hb.right⟩⟩
    · simp [refOf_branch, Snap.height, f1]
    · simp [refOf_branch, Snap.size, f4, hsz]
    · simp [refOf_branch, Snap.version, f3]
    · simp [refOf_branch, Snap.key, f5, hkey]
    · simp [refOf_branch, Snap.hash, f6]

include hlen in
/-- Start leaf and count of a reference. -/
theorem Located.start_count {s lc bc off n} (hl : Located H s lc bc off n) (hf : n.Fits) (he : n.Exact)
    (hb : Bounds lc bc off n) :
    s.startCount (refOf lc bc n) = some (lc, n.nl) := by
  cases n with
  | leaf => rfl
  | branch h sz ver k l r =>
    obtain ⟨_, f2, _, f4, f5, _, fs, _⟩ := hl.fields H hlen hf he hb
    simp [Snap.startCount, refOf_branch, f2, f4, fs]

include hlen in
theorem Located.get {s lc bc off n} (hl : Located H s lc bc off n) (hf : n.Fits) (he : n.Exact) (ho : n.Ordered)
    (hb : Bounds lc bc off n) (key : Key) : s.get (refOf lc bc n) key = some (n.get key) := by
  have hsc := hl.start_count H hlen hf he hb
  have hlv := hb.leaves
  have hsort := Node.sorted_toList n ho
  obtain ⟨g1, g2⟩ := Node.get_spec key n ho he
  have hkeys : ∀ i, i < n.nl → (s.leafKey ((lc + i) % 2 ^ 32)).map (fun lk => decide (key ≤ lk)) =
      some (decide (¬ i < rank key n.toList)) := by
    intro i hi
    rw [mod32 (by omega), (hl.leafAt H hlen hf hb.off i hi).1, Option.map_some]
    congr 1
    have := rank_lt_iff hsort key i hi
    by_cases hc : i < rank key n.toList
    · have h1 := this.2 hc
      simp only [hc, not_true, decide_false, decide_eq_false_iff_not]; grind
    · have h1 : ¬ n.toList[i].1 < key := fun h => hc (this.1 h)
      simp only [hc, not_false_eq_true, decide_true, decide_eq_true_eq]; grind
  have hrl : rank key n.toList ≤ n.nl := rank_le_length key n.toList
  have hsearch := searchLoop_spec _ (fun i => decide (¬ i < rank key n.toList)) (rank key n.toList) n.nl hkeys
    hrl (by intro i hi; simp [hi]) (by intro i hi _; simp; omega) 0 n.nl (by omega) (by omega) (by omega)
  unfold Snap.get
  rw [hsc]
  simp only [Option.bind_eq_bind, Option.bind_some, hsearch, Option.pure_def]
  rw [mod32 (show rank key n.toList + lc < 2 ^ 32 by omega), mod32 hlv]
  have hfin : ∀ v, n.get key = (v, rank key n.toList) ↔ (n.get key).1 = v := by
    intro v; rw [← g1]; constructor
    · intro h; rw [h]
    · intro h; rw [← h]
  by_cases hc : rank key n.toList + lc ≥ lc + n.nl
  · rw [if_pos hc]
    congr 1; symm; rw [hfin, Option.eq_none_iff_forall_ne_some]
    intro v hv
    obtain ⟨j, hj, hje⟩ := List.getElem_of_mem ((g2 v).1 hv)
    have hj' : j < n.nl := hj
    have := (rank_lt_iff hsort key j hj).2 (by omega)
    rw [hje] at this
    grind
  · have hi : rank key n.toList < n.toList.length := by unfold Node.nl at hc; omega
    rw [if_neg hc, Nat.add_comm, (hl.leafAt H hlen hf hb.off _ hi).2]
    simp only [Option.bind_some]
    by_cases hk : n.toList[rank key n.toList].1 = key
    · rw [if_neg (by simpa using hk)]
      congr 1; symm; rw [hfin, g2]
      have := List.getElem_mem hi
      rwa [← Prod.eta n.toList[rank key n.toList], hk] at this
    · rw [if_pos hk]
      congr 1; symm; rw [hfin, Option.eq_none_iff_forall_ne_some]
      intro v hv
      obtain ⟨j, hj, hje⟩ := List.getElem_of_mem ((g2 v).1 hv)
      have h1 := rank_getElem hsort j hj
      rw [hje] at h1
      simp only at h1
      apply hk
      have : n.toList[rank key n.toList] = n.toList[j] := by congr 1
      rw [this, hje]

include hlen in
theorem Located.getByIndex {s lc bc off n} (hl : Located H s lc bc off n) (hf : n.Fits) (he : n.Exact)
    (hb : Bounds lc bc off n) (i : Nat) (hi : lc + i < 2 ^ 32) :
    s.getByIndex (refOf lc bc n) i = some (n.getByIndex i) := by
  rw [Node.getByIndex_spec i n he]
  cases n with
  | leaf k v ver =>
    have hoff : off < 2 ^ 64 := by have := hb.off; simp [encKV] at this; omega
    obtain ⟨g1, g2⟩ := hl.leafKV H hlen hf hoff
    simp only [Snap.getByIndex, refOf, ↓reduceIte, Node.toList, g2, Option.map_some]
    cases i <;> simp
  | branch h sz ver k l r =>
    obtain ⟨_, f2, _, f4, f5, _, fs, fe⟩ := hl.fields H hlen hf he hb
    have hlv := hb.leaves
    have hll := l.nl_pos
    rw [refOf_branch, getByIndex_eq f2 f4]
    have hm : (Snap.getStartLeaf (bc + l.nl + r.nl - 2) (l.nl + r.nl) (lc - bc) + i) % 2 ^ 32 = lc + i := by
      rw [fs]; exact mod32 hi
    rw [hm, fe, Snap.leafUpTo]
    have hlen' : (Node.branch h sz ver k l r).toList.length = l.nl + r.nl := by simp [Node.toList, Node.nl]
    by_cases hc : lc + i > lc + l.nl + r.nl - 1
    · rw [if_pos hc, List.getElem?_eq_none (by omega)]
    · have hi' : i < (Node.branch h sz ver k l r).toList.length := by omega
      rw [if_neg hc, (hl.leafAt H hlen hf hb.off i hi').2, List.getElem?_eq_getElem hi']; rfl

theorem located_writeSnapshot (ver : Nat) (n : Node) :
    Located H (Tree.writeSnapshot H { version := ver, root := some n }) 0 0 0 n := by
  simp only [Tree.writeSnapshot, writeRecursive_eq]
  exact ⟨⟨[], [], by simp [Writer.new], rfl⟩, ⟨[], [], by simp [Writer.new], rfl⟩, ⟨[], [], by simp [Writer.new], rfl⟩⟩

include hlen in
theorem openRoot_writeSnapshot (ver : Nat) (n : Node) :
    (Tree.writeSnapshot H { version := ver, root := some n }).openRoot = some (some (refOf 0 0 n)) := by
  have hp := n.nl_pos
  have h1 : (Tree.writeSnapshot H { version := ver, root := some n }).nodes.length = 48 * (n.nl - 1) := by
    simp [Tree.writeSnapshot, writeRecursive_eq, Writer.new, encB_length H hlen]
  have h2 : (Tree.writeSnapshot H { version := ver, root := some n }).leaves.length = 48 * n.nl := by
    simp [Tree.writeSnapshot, writeRecursive_eq, Writer.new, encL_length H hlen]
  simp only [Snap.openRoot, Snap.nodesLen, Snap.leavesLen, h1, h2, sizeNode, sizeLeaf, Nat.mul_mod_right,
    Nat.mul_div_cancel_left _ (show 0 < 48 by omega)]
  rw [if_neg (by omega), if_neg (by omega), if_neg (by omega)]
  by_cases hn : n.nl = 1
  · rw [if_neg (by omega), if_pos (by omega), refOf_of_one hn]
  · rw [if_pos (by omega), refOf_of_ne_one hn]; congr 3; omega

theorem Node.FitsFormat.bounds {n : Node} (h : n.FitsFormat) (hw : n.WF) : n.Fits ∧ Bounds 0 0 0 n := by
  have hd := Node.depth_lt n hw.balanced h.leaves
  refine ⟨Node.fits_of n hw.exact (by omega) h.versions h.lengths, by omega, by omega, ?_, ?_⟩
  · have := h.leaves; unfold Node.nl; omega
  · have := h.offset; rw [encKV_length]; omega

end MemIAVL
