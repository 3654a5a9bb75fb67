import Verif.MemIAVL.Snapshot
import Verif.MemIAVL.HashProps
/-! Helper lemmas for memiavl snapshots. -/
set_option linter.unusedSimpArgs false
namespace MemIAVL
open Varint Bytes

variable (H : Bytes → Bytes)

/-- Number of leaves (proof device). -/
def Node.nl (n : Node) : Nat := n.toList.length

theorem Node.nl_pos (n : Node) : 0 < n.nl := List.length_pos_iff.2 n.toList_ne_nil

@[simp] theorem Node.nl_leaf (k v ver) : (Node.leaf k v ver).nl = 1 := rfl
@[simp] theorem Node.nl_branch (h s ver k l r) : (Node.branch h s ver k l r).nl = l.nl + r.nl := by
  simp [Node.nl, Node.toList]

/-- Bytes the writer appends to the three files (proof devices). -/
def encKV : Node → Bytes
  | .leaf k v _ => le 4 k.length ++ k ++ le 4 v.length ++ v
  | .branch _ _ _ _ l r => encKV l ++ encKV r

def encL (off : Nat) : Node → Bytes
  | .leaf k v ver => le 4 ver ++ le 4 k.length ++ le 8 off ++ (Node.leaf k v ver).hash H
  | .branch _ _ _ _ l r => encL off l ++ encL (off + (encKV l).length) r

def branchRec (lc bc : Nat) (h s ver : Nat) (k : Key) (l r : Node) : Bytes :=
  le 1 h ++ le 1 ((lc - bc) % 256) ++ [0, 0] ++ le 4 ver ++ le 4 s ++ le 4 (lc + l.nl) ++
    (Node.branch h s ver k l r).hash H

def encB (lc bc : Nat) : Node → Bytes
  | .leaf .. => []
  | .branch h s ver k l r =>
    encB lc bc l ++ encB (lc + l.nl) (bc + l.nl - 1) r ++ branchRec H lc bc h s ver k l r

variable (hlen : ∀ x, (H x).length = 32)

include hlen in
theorem encL_length (off : Nat) (n : Node) : (encL H off n).length = 48 * n.nl := by
  induction n generalizing off with
  | leaf => simp [encL, Node.hash_length H hlen]
  | branch h s ver k l r ihl ihr => simp [encL, ihl, ihr]; omega

include hlen in
theorem branchRec_length (lc bc h s ver k l r) : (branchRec H lc bc h s ver k l r).length = 48 := by
  simp [branchRec, Node.hash_length H hlen]

include hlen in
theorem encB_length (lc bc : Nat) (n : Node) : (encB H lc bc n).length = 48 * (n.nl - 1) := by
  induction n generalizing lc bc with
  | leaf => simp [encB]
  | branch h s ver k l r ihl ihr =>
    have := l.nl_pos; have := r.nl_pos
    simp [encB, ihl, ihr, branchRec_length H hlen]; omega

/-- What the writer does, in closed form. -/
theorem writeRecursive_eq (w : Writer) (n : Node) :
    w.writeRecursive H n =
      { snap := { nodes := w.snap.nodes ++ encB H w.leafCounter w.branchCounter n
                  leaves := w.snap.leaves ++ encL H w.kvsOffset n
                  kvs := w.snap.kvs ++ encKV n }
        branchCounter := w.branchCounter + n.nl - 1
        leafCounter := w.leafCounter + n.nl
        kvsOffset := w.kvsOffset + (encKV n).length } := by
  induction n generalizing w with
  | leaf k v ver =>
    simp [Writer.writeRecursive, Writer.writeLeaf, encB, encL, encKV]; omega
  | branch h s ver k l r ihl ihr =>
    have := l.nl_pos; have := r.nl_pos
    simp only [Writer.writeRecursive, ihl, ihr, Writer.writeBranch, encB, encL, encKV, branchRec,
      List.append_assoc, Node.nl_branch, List.length_append]
    simp only [Writer.mk.injEq, true_and]
    refine ⟨by omega, by omega, by omega⟩

/-- Field sizes fit their encodings. -/
def Node.Fits : Node → Prop
  | .leaf k v ver => ver < 2 ^ 32 ∧ k.length < 2 ^ 32 ∧ v.length < 2 ^ 32
  | .branch h _ ver _ l r => h < 256 ∧ ver < 2 ^ 32 ∧ l.Fits ∧ r.Fits

/-- Node `n` was written to `s` when the writer's counters were `lc`, `bc`, `off` (proof device). -/
structure Located (s : Snap) (lc bc off : Nat) (n : Node) : Prop where
  nodes : ∃ a c, s.nodes = a ++ encB H lc bc n ++ c ∧ a.length = 48 * bc
  leaves : ∃ a c, s.leaves = a ++ encL H off n ++ c ∧ a.length = 48 * lc
  kvs : ∃ a c, s.kvs = a ++ encKV n ++ c ∧ a.length = off

theorem Located.left {s lc bc off h sz ver k l r} (hl : Located H s lc bc off (.branch h sz ver k l r)) :
    Located H s lc bc off l := by
  obtain ⟨⟨a, c, h1, h1'⟩, ⟨a2, c2, h2, h2'⟩, ⟨a3, c3, h3, h3'⟩⟩ := hl
  exact ⟨⟨a, encB H (lc + l.nl) (bc + l.nl - 1) r ++ MemIAVL.branchRec H lc bc h sz ver k l r ++ c,
      by rw [h1]; simp only [encB, List.append_assoc], h1'⟩,
    ⟨a2, encL H (off + (encKV l).length) r ++ c2, by rw [h2]; simp only [encL, List.append_assoc], h2'⟩,
    ⟨a3, encKV r ++ c3, by rw [h3]; simp only [encKV, List.append_assoc], h3'⟩⟩

include hlen in
theorem Located.right {s lc bc off h sz ver k l r} (hl : Located H s lc bc off (.branch h sz ver k l r)) :
    Located H s (lc + l.nl) (bc + l.nl - 1) (off + (encKV l).length) r := by
  obtain ⟨⟨a, c, h1, h1'⟩, ⟨a2, c2, h2, h2'⟩, ⟨a3, c3, h3, h3'⟩⟩ := hl
  have := l.nl_pos
  exact ⟨⟨a ++ encB H lc bc l, branchRec H lc bc h sz ver k l r ++ c, by rw [h1]; simp only [encB, List.append_assoc],
      by simp [encB_length H hlen, h1']; omega⟩,
    ⟨a2 ++ encL H off l, c2, by rw [h2]; simp only [encL, List.append_assoc],
      by simp [encL_length H hlen, h2']; omega⟩,
    ⟨a3 ++ encKV l, c3, by rw [h3]; simp only [encKV, List.append_assoc], by simp [h3']⟩⟩

theorem slice_of {b a x c : List UInt8} {off len : Nat} (h : b = a ++ x ++ c) (h1 : off = a.length)
    (h2 : len = x.length) : slice b off len = some x := by
  subst h; exact slice_append h1 h2

include hlen in
theorem Located.leafRec {s lc bc off k v ver} (hl : Located H s lc bc off (.leaf k v ver)) :
    slice s.leaves (lc * sizeLeaf) sizeLeaf =
      some (le 4 ver ++ le 4 k.length ++ le 8 off ++ (Node.leaf k v ver).hash H) := by
  obtain ⟨a2, c2, h2, h2'⟩ := hl.leaves
  exact slice_of h2 (by simp [sizeLeaf, h2']; omega) (by simp [encL, sizeLeaf, Node.hash_length H hlen])

include hlen in
theorem Located.branchRec {s lc bc off h sz ver k l r} (hl : Located H s lc bc off (.branch h sz ver k l r)) :
    slice s.nodes ((bc + l.nl + r.nl - 2) * sizeNode) sizeNode = some (branchRec H lc bc h sz ver k l r) := by
  obtain ⟨a, c, h1, h1'⟩ := hl.nodes
  have := l.nl_pos; have := r.nl_pos
  refine slice_of (a := a ++ encB H lc bc l ++ encB H (lc + l.nl) (bc + l.nl - 1) r) (c := c)
    (by rw [h1]; simp only [encB, List.append_assoc]) ?_ ?_
  · simp [encB_length H hlen, h1', sizeNode]; omega
  · simp [branchRec_length H hlen, sizeNode]

include hlen in
theorem Located.leaf_fields {s lc bc off k v ver} (hl : Located H s lc bc off (.leaf k v ver))
    (hf : (Node.leaf k v ver).Fits) (hoff : off < 2 ^ 64) :
    s.leafVersion lc = some ver ∧ s.leafKeyLength lc = some k.length ∧ s.leafKeyOffset lc = some off ∧
    s.leafHash lc = some ((Node.leaf k v ver).hash H) := by
  have hrec := hl.leafRec H hlen
  obtain ⟨f1, f2, f3⟩ := hf
  have hh := Node.hash_length H hlen (.leaf k v ver)
  refine ⟨?_, ?_, ?_, ?_⟩
  · have e : s.leafField lc 0 4 = some (le 4 ver) := by
      simp only [Snap.leafField, hrec, Option.bind_eq_bind, Option.bind_some]
      exact slice_of (a := []) (c := le 4 k.length ++ le 8 off ++ (Node.leaf k v ver).hash H) (by simp) rfl (by simp)
    rw [Snap.leafVersion, e, Option.map_some, unle_le _ _ (by omega)]
  · have e : s.leafField lc 4 4 = some (le 4 k.length) := by
      simp only [Snap.leafField, hrec, Option.bind_eq_bind, Option.bind_some]
      exact slice_of (a := le 4 ver) (c := le 8 off ++ (Node.leaf k v ver).hash H) (by simp) (by simp) (by simp)
    rw [Snap.leafKeyLength, e, Option.map_some, unle_le _ _ (by omega)]
  · have e : s.leafField lc 8 8 = some (le 8 off) := by
      simp only [Snap.leafField, hrec, Option.bind_eq_bind, Option.bind_some]
      exact slice_of (a := le 4 ver ++ le 4 k.length) (c := (Node.leaf k v ver).hash H) (by simp) (by simp) (by simp)
    rw [Snap.leafKeyOffset, e, Option.map_some, unle_le _ _ (by omega)]
  · simp only [Snap.leafHash, Snap.leafField, hrec, Option.bind_eq_bind, Option.bind_some]
    exact slice_of (a := le 4 ver ++ le 4 k.length ++ le 8 off) (c := []) (by simp) (by simp) (by simp [hh])

include hlen in
theorem Located.branch_fields {s lc bc off h sz ver k l r} (hl : Located H s lc bc off (.branch h sz ver k l r))
    (hf : (Node.branch h sz ver k l r).Fits) (hsz : sz < 2 ^ 32) (hlc : lc + l.nl < 2 ^ 32) (hpre : lc - bc < 256) :
    let i := bc + l.nl + r.nl - 2
    s.nodeHeight i = some h ∧ s.nodePreTrees i = some (lc - bc) ∧ s.nodeVersion i = some ver ∧
    s.nodeSize i = some sz ∧ s.nodeKeyLeaf i = some (lc + l.nl) ∧
    s.nodeHash i = some ((Node.branch h sz ver k l r).hash H) := by
  intro i
  have hrec := hl.branchRec H hlen
  obtain ⟨f1, f2, f3⟩ := hf
  have hh := Node.hash_length H hlen (.branch h sz ver k l r)
  have hmod : (lc - bc) % 256 = lc - bc := Nat.mod_eq_of_lt hpre
  have field : ∀ o n (a x c : Bytes), MemIAVL.branchRec H lc bc h sz ver k l r = a ++ x ++ c → o = a.length → n = x.length →
      s.nodeField i o n = some x := by
    intro o n a x c e h1 h2
    simp only [Snap.nodeField, i, hrec, Option.bind_eq_bind, Option.bind_some]
    exact slice_of e h1 h2
  unfold MemIAVL.branchRec at field
  rw [hmod] at field
  refine ⟨?_, ?_, ?_, ?_, ?_, ?_⟩
  · rw [Snap.nodeHeight, field 0 1 [] (le 1 h) _ (by simp only [List.append_assoc, List.nil_append]; rfl) rfl (by simp),
      Option.map_some, unle_le _ _ (by omega)]
  · rw [Snap.nodePreTrees, field 1 1 (le 1 h) (le 1 (lc - bc)) _ (by simp only [List.append_assoc]; rfl) (by simp) (by simp),
      Option.map_some, unle_le _ _ (by omega)]
  · rw [Snap.nodeVersion, field 4 4 (le 1 h ++ le 1 (lc - bc) ++ [0, 0]) (le 4 ver) _ (by simp only [List.append_assoc]; rfl)
      (by simp) (by simp), Option.map_some, unle_le _ _ (by omega)]
  · rw [Snap.nodeSize, field 8 4 (le 1 h ++ le 1 (lc - bc) ++ [0, 0] ++ le 4 ver) (le 4 sz) _
      (by simp only [List.append_assoc]; rfl) (by simp) (by simp), Option.map_some, unle_le _ _ (by omega)]
  · rw [Snap.nodeKeyLeaf, field 12 4 (le 1 h ++ le 1 (lc - bc) ++ [0, 0] ++ le 4 ver ++ le 4 sz) (le 4 (lc + l.nl)) _
      (by simp only [List.append_assoc]; rfl) (by simp) (by simp), Option.map_some, unle_le _ _ (by omega)]
  · rw [Snap.nodeHash, field 16 32 (le 1 h ++ le 1 (lc - bc) ++ [0, 0] ++ le 4 ver ++ le 4 sz ++ le 4 (lc + l.nl))
      ((Node.branch h sz ver k l r).hash H) [] (by simp only [List.append_assoc, List.append_nil]) (by simp) (by simp [hh])]

include hlen in
theorem Located.leafKV {s lc bc off k v ver} (hl : Located H s lc bc off (.leaf k v ver))
    (hf : (Node.leaf k v ver).Fits) (hoff : off < 2 ^ 64) :
    s.leafKey lc = some k ∧ s.leafKeyValue lc = some (k, v) := by
  obtain ⟨_, e1, e2, _⟩ := hl.leaf_fields H hlen hf hoff
  obtain ⟨a, c, h3, h3'⟩ := hl.kvs
  simp only [encKV] at h3
  have s1 : slice s.kvs (off + 4) k.length = some k :=
    slice_of (a := a ++ le 4 k.length) (c := le 4 v.length ++ v ++ c) (by rw [h3]; simp) (by simp [h3']) rfl
  have s2 : slice s.kvs (off + 4 + k.length) 4 = some (le 4 v.length) :=
    slice_of (a := a ++ le 4 k.length ++ k) (c := v ++ c) (by rw [h3]; simp) (by simp [h3']; omega) (by simp)
  have s3 : slice s.kvs (off + 4 + k.length + 4) v.length = some v :=
    slice_of (a := a ++ le 4 k.length ++ k ++ le 4 v.length) (c := c) (by rw [h3]; simp) (by simp [h3']; omega) rfl
  obtain ⟨_, _, f3⟩ := hf
  constructor
  · simp [Snap.leafKey, e1, e2, s1]
  · simp [Snap.leafKeyValue, e1, e2, s1, s2, unle_le 4 v.length (by omega), s3]

include hlen in
theorem Located.leafAt {s lc bc off n} (hl : Located H s lc bc off n) (hf : n.Fits)
    (hoff : off + (encKV n).length ≤ 2 ^ 64) (i : Nat) (hi : i < n.toList.length) :
    s.leafKey (lc + i) = some n.toList[i].1 ∧ s.leafKeyValue (lc + i) = some n.toList[i] := by
  induction n generalizing lc bc off i with
  | leaf k v ver =>
    have hi0 : i = 0 := by simpa [Node.toList] using hi
    subst hi0
    exact hl.leafKV H hlen hf (by simp [encKV] at hoff; omega)
  | branch h sz ver k l r ihl ihr =>
    simp only [encKV, List.length_append] at hoff
    simp only [Node.toList, List.length_append] at hi
    by_cases hil : i < l.toList.length
    · have := ihl (hl.left H) hf.2.2.1 (by omega) i hil
      simpa [Node.toList, List.getElem_append_left hil] using this
    · have h2 := ihr (hl.right H hlen) hf.2.2.2 (by omega) (i - l.toList.length) (by omega)
      have e : lc + l.nl + (i - l.toList.length) = lc + i := by unfold Node.nl; omega
      rw [e] at h2
      simpa [Node.toList, List.getElem_append_right (Nat.le_of_not_lt hil)] using h2

/-! ### Binary search -/

theorem searchLoop_spec (f : Nat → Option Bool) (g : Nat → Bool) (m n : Nat)
    (hf : ∀ i, i < n → f i = some (g i)) (hmn : m ≤ n) (hlo : ∀ i, i < m → g i = false)
    (hhi : ∀ i, m ≤ i → i < n → g i = true) (i j : Nat) (h1 : i ≤ m) (h2 : m ≤ j) (h3 : j ≤ n) :
    searchLoop f i j = some m := by
  fun_induction searchLoop f i j with
  | case1 i j hij h hfn => rw [hf _ (by omega)] at hfn; simp at hfn
  | case2 i j hij h hfh ih =>
    rw [hf _ (by omega)] at hfh
    simp only [Option.some.injEq] at hfh
    refine ih ?_ h2 h3
    apply Classical.byContradiction; intro hc
    have hh := hhi h (by omega) (by omega)
    rw [hfh] at hh; cases hh
  | case3 i j hij h hfh ih =>
    rw [hf _ (by omega)] at hfh
    simp only [Option.some.injEq] at hfh
    refine ih h1 ?_ (by omega)
    apply Classical.byContradiction; intro hc
    have hh := hlo h (by omega)
    rw [hfh] at hh; cases hh
  | case4 i j hij => congr 1; omega

theorem rank_lt_iff {l : List (Key × Val)} (hs : SortedKeys l) (key : Key) (i : Nat) (hi : i < l.length) :
    l[i].1 < key ↔ i < rank key l := by
  induction l generalizing i with
  | nil => simp at hi
  | cons p l ih =>
    simp only [SortedKeys, List.pairwise_cons] at hs
    by_cases hp : p.1 < key
    · have : rank key (p :: l) = rank key l + 1 := by simp [rank, hp]
      rw [this]
      cases i with
      | zero => simp [hp]
      | succ i =>
        have := ih hs.2 i (by simpa using hi)
        simp only [List.getElem_cons_succ, this]; omega
    · have h0 : rank key (p :: l) = 0 := by
        apply Node.rank_none
        intro q hq
        rcases List.mem_cons.1 hq with rfl | hq
        · grind
        · have := hs.1 q hq; grind
      rw [h0]
      cases i with
      | zero => simp; grind
      | succ i =>
        simp only [List.getElem_cons_succ, Nat.not_lt_zero, iff_false]
        have := hs.1 (l[i]'(by simpa using hi)) (List.getElem_mem _)
        grind

theorem rank_le_length (key : Key) (l : List (Key × Val)) : rank key l ≤ l.length := List.length_filter_le _ _

end MemIAVL
