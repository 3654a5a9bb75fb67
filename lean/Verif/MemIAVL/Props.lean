import Verif.MemIAVL.Lemmas2
/-!
# memiavl: property theorems C01, C02, C03

Hypothesis-free: they speak about every tree reached from an empty tree (at any version) by any history.
-/
namespace MemIAVL

/-- **C01** After any history, `Get` answers with the last value written and not removed since. -/
theorem C01_get_eq_content (version : Nat) (ops : List Op) (k : Key) :
    ((Tree.empty version).run ops).get k = contentAfter ops k := by
  suffices h : ∀ (t : Tree) (c : Content), t.WF → (∀ k, t.get k = c k) →
      ∀ k, (t.run ops).get k = ops.foldl Content.apply c k from
    h _ _ (Tree.WF_empty version) (fun _ => rfl) k
  induction ops with
  | nil => intro t c _ h k; exact h k
  | cons op ops ih =>
    intro t c hw h k
    refine ih (t.step op) (c.apply op) (t.WF_step op hw) (fun k => ?_) k
    rw [t.get_step op k hw]
    have : t.get = c := funext h
    rw [this]

example : ((Tree.empty 0).run [.set [1] [10], .set [2] [20], .save, .remove [1], .set [3] [30],
    .set [2] [21]]).get [2] = some [21] := by decide
example : ((Tree.empty 0).run [.set [1] [10], .set [2] [20], .save, .remove [1]]).get [1] = none := by decide

/-- **C01** The value reported by `Remove` on a reachable tree: it is the value stored under the key, and a
removal of an absent key leaves the tree unchanged. -/
theorem C01_remove_reports (version : Nat) (ops : List Op) (k : Key) (n : Node)
    (hn : ((Tree.empty version).run ops).root = some n) (v : Nat) :
    (n.removeRec k v).1 = contentAfter ops k ∧
    ((n.removeRec k v).1 = none → (n.removeRec k v).2.1 = some n) := by
  have hw := Tree.WF_run _ ops (Tree.WF_empty version)
  have hsp := Node.removeRec_spec k v n (hw n hn).ordered
  have hl : ((Tree.empty version).run ops).toList = n.toList := by simp [Tree.toList, hn]
  refine ⟨?_, fun h => (hsp.notFound h).2.1⟩
  rw [← C01_get_eq_content version]
  cases hres : (n.removeRec k v).1 with
  | none =>
    have := (hsp.notFound hres).1
    symm; rw [Tree.get_none _ _ hw, hl]; intro v hv; exact this _ hv rfl
  | some x => symm; rw [Tree.get_some _ _ _ hw, hl]; exact hsp.found _ hres

example : ∃ n, ((Tree.empty 0).run [.set [1] [10], .set [2] [20]]).root = some n ∧
    (n.removeRec [1] 1).1 = some [10] ∧ (n.removeRec [3] 1).1 = none := by
  refine ⟨_, rfl, ?_, ?_⟩ <;> decide

/-- **C01** `Set` reports an update exactly when the key was present (non-empty tree). -/
theorem C01_set_reports (version : Nat) (ops : List Op) (k : Key) (x : Val) (n : Node)
    (hn : ((Tree.empty version).run ops).root = some n) (v : Nat) :
    (n.setRec k x v).2 = true ↔ contentAfter ops k ≠ none := by
  have hw := Tree.WF_run _ ops (Tree.WF_empty version)
  have hl : ((Tree.empty version).run ops).toList = n.toList := by simp [Tree.toList, hn]
  rw [Node.setRec_updated _ _ _ _ (hw n hn).ordered, ← C01_get_eq_content version, Ne,
    Tree.get_none _ _ hw, hl]
  constructor
  · rintro ⟨p, hp, rfl⟩ h; exact h p.2 hp
  · intro h; simp only [Classical.not_forall, Classical.not_not] at h
    obtain ⟨y, hy⟩ := h; exact ⟨_, hy, rfl⟩

/-- **C01** The stored pairs of a reachable tree are exactly the content, in strictly increasing key order
(so there are no duplicates). -/
theorem C01_pairs (version : Nat) (ops : List Op) :
    let t := (Tree.empty version).run ops
    t.toList.Pairwise (fun a b => a.1 < b.1) ∧ ∀ k v, (k, v) ∈ t.toList ↔ contentAfter ops k = some v := by
  have hw := Tree.WF_run _ ops (Tree.WF_empty version)
  refine ⟨Tree.sorted _ hw, fun k v => ?_⟩
  rw [← C01_get_eq_content version, Tree.get_some _ _ _ hw]

/-- **C02** Every reachable tree is search-ordered with exact branch keys, has exact stored heights and sizes, and is
AVL-balanced (see `Node.Ordered`, `Node.Exact`, `Node.Balanced`). -/
theorem C02_wellFormed (version : Nat) (ops : List Op) (n : Node)
    (hn : ((Tree.empty version).run ops).root = some n) : n.Ordered ∧ n.Exact ∧ n.Balanced :=
  let h := Tree.WF_run _ ops (Tree.WF_empty version) n hn
  ⟨h.ordered, h.exact, h.balanced⟩

example : ∃ n, ((Tree.empty 0).run [.set [1] [], .set [2] [], .set [3] [], .set [4] [], .remove [1]]).root = some n ∧
    n.height = 2 ∧ n.size = 3 := by refine ⟨_, rfl, ?_, ?_⟩ <;> decide

/-- Fibonacci numbers, for the depth bound. -/
def fib : Nat → Nat
  | 0 => 1
  | 1 => 2
  | n + 2 => fib (n + 1) + fib n

theorem fib_le (n : Nat) : fib n ≤ fib (n + 1) := by
  cases n with
  | zero => decide
  | succ n => simp only [fib]; omega

theorem Node.fib_le_of_balanced (n : Node) (h : n.Balanced) : fib n.depth ≤ n.toList.length := by
  induction n with
  | leaf => simp [depth, fib, toList]
  | branch hh s ver k l r ihl ihr =>
    obtain ⟨bl, br, b1, b2⟩ := h
    have ihl := ihl bl
    have ihr := ihr br
    simp only [depth, toList, List.length_append]
    rcases Nat.lt_trichotomy l.depth r.depth with hlt | heq | hgt
    · have : r.depth = l.depth + 1 := by omega
      rw [Nat.max_eq_right (by omega), this]; rw [this] at ihr; simp only [fib]; omega
    · have hh : max l.depth r.depth = l.depth := by omega
      rw [hh]
      rw [← heq] at ihr
      cases hd : l.depth with
      | zero => simp only [hd, fib] at *; omega
      | succ d =>
        rw [hd] at ihl ihr
        simp only [fib]
        have := fib_le d; omega
    · have : l.depth = r.depth + 1 := by omega
      rw [Nat.max_eq_left (by omega), this]; rw [this] at ihl; simp only [fib]; omega

theorem fib_pow (n : Nat) : 2 ^ (n / 2) ≤ fib n := by
  induction n using Nat.strongRecOn with
  | ind n ih =>
    match n with
    | 0 => decide
    | 1 => decide
    | n + 2 =>
      have h1 := ih n (by omega)
      have h2 := fib_le n
      have : (n + 2) / 2 = n / 2 + 1 := by omega
      rw [this, Nat.pow_succ]; simp only [fib]; omega

/-- **C02** Depth is logarithmic: a reachable tree of depth `d` has at least `fib d ≥ 2^(d/2)` keys, the stored height
is the depth and the stored size is the number of keys.  In particular the `uint8` height cannot overflow
before there are `2^127` keys. -/
theorem C02_depth_logarithmic (version : Nat) (ops : List Op) (n : Node)
    (hn : ((Tree.empty version).run ops).root = some n) :
    n.height = n.depth ∧ n.size = n.toList.length ∧ fib n.depth ≤ n.size ∧ 2 ^ (n.depth / 2) ≤ n.size := by
  obtain ⟨_, he, hb⟩ := C02_wellFormed version ops n hn
  have h1 := Node.fib_le_of_balanced n hb
  have h2 := fib_pow n.depth
  rw [Node.size_eq_length n he]
  exact ⟨Node.height_eq_depth n he, rfl, h1, by omega⟩

/-- **C03** `GetByIndex i` is the `i`-th smallest stored pair, nothing past the end. -/
theorem C03_getByIndex (version : Nat) (ops : List Op) (i : Nat) :
    let t := (Tree.empty version).run ops
    t.getByIndex i = t.toList[i]? := by
  have hw := Tree.WF_run _ ops (Tree.WF_empty version)
  simp only [Tree.getByIndex, Tree.toList]
  cases hr : ((Tree.empty version).run ops).root with
  | none => rfl
  | some n => exact Node.getByIndex_spec i n (hw n hr).exact

/-- **C03** `GetWithIndex k` returns the number of stored keys smaller than `k`, and the content. -/
theorem C03_getWithIndex (version : Nat) (ops : List Op) (k : Key) :
    let t := (Tree.empty version).run ops
    t.getWithIndex k = ((t.toList.filter (fun p => p.1 < k)).length, contentAfter ops k) := by
  have hw := Tree.WF_run _ ops (Tree.WF_empty version)
  refine Prod.ext ?_ (C01_get_eq_content version ops k)
  exact (Tree.getWithIndex_spec _ k hw).1

theorem rank_getElem {l : List (Key × Val)} (hs : SortedKeys l) (i : Nat) (hi : i < l.length) :
    rank l[i].1 l = i := by
  induction l generalizing i with
  | nil => simp at hi
  | cons p l ih =>
    simp only [SortedKeys, List.pairwise_cons] at hs
    cases i with
    | zero =>
      simp only [List.getElem_cons_zero]
      apply Node.rank_none
      intro q hq
      rcases List.mem_cons.1 hq with rfl | hq
      · grind
      · have := hs.1 q hq; grind
    | succ i =>
      simp only [List.getElem_cons_succ]
      have h1 := ih hs.2 i (by simpa using hi)
      have h2 : p.1 < (l[i]'(by simpa using hi)).1 := hs.1 _ (List.getElem_mem _)
      unfold rank at *
      simp only [List.filter_cons, h2, decide_true, ↓reduceIte, List.length_cons, h1]

/-- **C03** The two operations are inverse: the pair at index `i` is found by its key, with index `i`; and a stored
key is found at the index reported for it. -/
theorem C03_inverse (version : Nat) (ops : List Op) :
    let t := (Tree.empty version).run ops
    (∀ i k v, t.getByIndex i = some (k, v) → t.getWithIndex k = (i, some v)) ∧
    (∀ i k v, t.getWithIndex k = (i, some v) → t.getByIndex i = some (k, v)) ∧
    (∀ i, t.getByIndex i = none ↔ t.size ≤ i) := by
  intro t
  have hw := Tree.WF_run _ ops (Tree.WF_empty version)
  have hs := Tree.sorted t hw
  have hgi : ∀ i, t.getByIndex i = t.toList[i]? := C03_getByIndex version ops
  have hfw : ∀ i k v, t.getByIndex i = some (k, v) → t.getWithIndex k = (i, some v) := by
    intro i k v h
    rw [hgi, List.getElem?_eq_some_iff] at h
    obtain ⟨hi, he⟩ := h
    have h1 := rank_getElem hs i hi
    have h2 := Tree.getWithIndex_spec t k hw
    refine Prod.ext ?_ ?_
    · rw [h2.1]; rw [he] at h1; exact h1
    · rw [h2.2]; rw [← he]; exact List.getElem_mem _
  refine ⟨hfw, ?_, ?_⟩
  · intro i k v h
    have h2 := Tree.getWithIndex_spec t k hw
    have hmem : (k, v) ∈ t.toList := (h2.2 v).1 (by rw [h])
    obtain ⟨j, hj, he⟩ := List.getElem_of_mem hmem
    have h3 : t.getByIndex j = some (k, v) := by rw [hgi, List.getElem?_eq_getElem hj, he]
    have h4 := hfw j k v h3
    rw [h] at h4
    simp only [Prod.mk.injEq] at h4
    rw [h4.1]; exact h3
  · intro i
    rw [hgi, List.getElem?_eq_none_iff]
    have : t.size = t.toList.length := by
      unfold Tree.size Tree.toList
      cases hr : t.root with
      | none => rfl
      | some n => exact Node.size_eq_length n (hw n hr).exact
    rw [this]

example : ((Tree.empty 0).run [.set [5] [], .set [2] [7], .set [3] []]).getByIndex 1 = some ([3], []) ∧
    ((Tree.empty 0).run [.set [5] [], .set [2] [7], .set [3] []]).getWithIndex [3] = (1, some []) := by decide

end MemIAVL
