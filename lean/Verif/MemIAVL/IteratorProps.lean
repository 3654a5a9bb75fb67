import Verif.MemIAVL.Iterator
import Verif.MemIAVL.Lemmas2
/-! # memiavl: iterator property theorem C04 -/
namespace MemIAVL

/-- Specification of a range: start inclusive, end exclusive, `none` unbounded. -/
def inRange (start stop : Option Key) (k : Key) : Bool :=
  (match start with | none => true | some s => decide (s ≤ k)) &&
  (match stop with | none => true | some e => decide (k < e))

/-- Pairs of a node the iteration has to yield, in iteration order (proof device). -/
def Dom.visit (d : Dom) (n : Node) : List (Key × Val) :=
  let l := n.toList.filter (fun p => inRange d.start d.stop p.1)
  if d.ascending then l else l.reverse

def Dom.visitAll (d : Dom) (st : List Node) : List (Key × Val) := st.flatMap d.visit

theorem inRange_leaf (d : Dom) (k : Key) :
    ((d.afterStart k || d.atStart k) && d.beforeEnd k) = inRange d.start d.stop k := by
  unfold Dom.afterStart Dom.atStart Dom.beforeEnd inRange
  cases d.start with
  | none => cases d.stop <;> simp
  | some s =>
    have : (decide (s < k) || decide (s = k)) = decide (s ≤ k) := by grind
    cases d.stop <;> simp [this]

theorem visit_left (d : Dom) {k : Key} {n : Node} (h : d.afterStart k = false) (hn : ∀ p ∈ n.toList, p.1 < k) :
    d.visit n = [] := by
  have : n.toList.filter (fun p => inRange d.start d.stop p.1) = [] := by
    rw [List.filter_eq_nil_iff]
    intro p hp
    have := hn p hp
    unfold Dom.afterStart at h
    unfold inRange
    cases hs : d.start with
    | none => simp [hs] at h
    | some s => simp only [hs, decide_eq_false_iff_not] at h; simp; grind
  simp [Dom.visit, this]

theorem visit_right (d : Dom) {k : Key} {n : Node} (h : d.beforeEnd k = false) (hn : ∀ p ∈ n.toList, k ≤ p.1) :
    d.visit n = [] := by
  have : n.toList.filter (fun p => inRange d.start d.stop p.1) = [] := by
    rw [List.filter_eq_nil_iff]
    intro p hp
    have := hn p hp
    unfold Dom.beforeEnd at h
    unfold inRange
    cases hs : d.stop with
    | none => simp [hs] at h
    | some s => simp only [hs, decide_eq_false_iff_not] at h; simp; grind
  simp [Dom.visit, this]

theorem visit_branch (d : Dom) (h s v k l r) : d.visit (.branch h s v k l r) =
    if d.ascending then d.visit l ++ d.visit r else d.visit r ++ d.visit l := by
  unfold Dom.visit
  cases d.ascending <;> simp [Node.toList]

theorem advance_spec (d : Dom) (st : List Node) (hst : ∀ n ∈ st, n.Ordered) :
    match d.advance st with
    | none => d.visitAll st = []
    | some (p, st') => d.visitAll st = p :: d.visitAll st' ∧ ∀ n ∈ st', n.Ordered := by
  fun_induction Dom.advance d st with
  | case1 => rfl
  | case2 key value _ stack h =>
    have := inRange_leaf d key
    rw [h] at this
    refine ⟨?_, fun n hn => hst n (by simp [hn])⟩
    simp only [Dom.visitAll, List.flatMap_cons, Dom.visit, Node.toList, List.filter_cons, ← this]
    simp
  | case3 key value _ stack h ih =>
    have := inRange_leaf d key
    have h : _ = false := Bool.eq_false_iff.2 h
    rw [h] at this
    have ih := ih (fun n hn => hst n (by simp [hn]))
    have e : d.visitAll (.leaf key value ‹_› :: stack) = d.visitAll stack := by
      simp only [Dom.visitAll, List.flatMap_cons, Dom.visit, Node.toList, List.filter_cons, ← this]
      simp
    rw [e]; exact ih
  | case4 h s v key l r stack hasc stack1 stack2 ih =>
    have ho := hst (.branch h s v key l r) (by simp)
    obtain ⟨hl, hr, h1, h2, _⟩ := ho
    have ih := ih (by
      intro n hn
      simp only [stack2, stack1] at hn
      have hst' := fun n hn => hst n (List.mem_cons_of_mem _ hn)
      split at hn <;> split at hn <;> grind)
    have e : d.visitAll (.branch h s v key l r :: stack) = d.visitAll stack2 := by
      simp only [Dom.visitAll, List.flatMap_cons, visit_branch, hasc, ↓reduceIte, stack2, stack1]
      have hvl := fun h => visit_left d h h1
      have hvr := fun h => visit_right d h h2
      by_cases ha : d.afterStart key <;> by_cases hb : d.beforeEnd key <;> simp_all
    rw [e]; exact ih
  | case5 h s v key l r stack hasc stack1 stack2 ih =>
    have ho := hst (.branch h s v key l r) (by simp)
    obtain ⟨hl, hr, h1, h2, _⟩ := ho
    have ih := ih (by
      intro n hn
      simp only [stack2, stack1] at hn
      have hst' := fun n hn => hst n (List.mem_cons_of_mem _ hn)
      split at hn <;> split at hn <;> grind)
    have e : d.visitAll (.branch h s v key l r :: stack) = d.visitAll stack2 := by
      simp only [Dom.visitAll, List.flatMap_cons, visit_branch, hasc, ↓reduceIte, stack2, stack1]
      have hvl := fun h => visit_left d h h1
      have hvr := fun h => visit_right d h h2
      by_cases ha : d.afterStart key <;> by_cases hb : d.beforeEnd key <;> simp_all
    rw [e]; exact ih

theorem collect_next (n : Nat) (it : Iter) (hv : it.valid = true) (hst : ∀ m ∈ it.stack, m.Ordered) :
    it.next.collect n = (it.dom.visitAll it.stack).take n := by
  induction n generalizing it with
  | zero => simp [Iter.collect]
  | succ n ih =>
    have hs := advance_spec it.dom it.stack hst
    simp only [Iter.collect]
    cases ha : it.dom.advance it.stack with
    | none =>
      simp only [ha] at hs
      simp [Iter.next, ha, hs]
    | some q =>
      obtain ⟨p, st'⟩ := q
      simp only [ha] at hs
      have e : it.next = { it with key := p.1, value := p.2, stack := st' } := by simp [Iter.next, ha]
      have ih := ih it.next (by simp [e, hv]) (by simpa [e] using hs.2)
      rw [ih]; simp [e, hv, hs.1]

/-- **C04** Iterating a reachable tree from `start` (inclusive) to `stop` (exclusive) yields exactly the stored pairs in
range, in increasing order if ascending and in decreasing order otherwise; taking `n` steps yields the first
`n` of them (so no pair is repeated or dropped, and the iterator becomes invalid exactly at the end). -/
theorem C04_iterator (version : Nat) (ops : List Op) (start stop : Option Key) (asc : Bool) (n : Nat) :
    let t := (Tree.empty version).run ops
    let expected := t.toList.filter (fun p => inRange start stop p.1)
    (t.iterator start stop asc).collect n =
      (if asc then expected else expected.reverse).take n := by
  intro t expected
  have hw := Tree.WF_run _ ops (Tree.WF_empty version)
  unfold Tree.iterator Iter.new
  rw [collect_next n _ rfl]
  · congr 1
    simp only [expected, Dom.visitAll, Tree.toList]
    cases hr : t.root <;> simp [Dom.visit]
  · intro m hm
    simp only [Option.mem_toList, Option.mem_def] at hm
    exact (hw m hm).ordered

/-- **C04**, in terms of the content: a pair is yielded by a complete iteration iff its key is in range and it is the
content of the store; and the yielded keys are strictly monotone. -/
theorem C04_iterator_content (version : Nat) (ops : List Op) (start stop : Option Key) (asc : Bool) :
    let t := (Tree.empty version).run ops
    let out := (t.iterator start stop asc).collect (t.toList.length + 1)
    (∀ k v, (k, v) ∈ out ↔ inRange start stop k = true ∧ t.get k = some v) ∧
    out.Pairwise (fun a b => if asc then a.1 < b.1 else b.1 < a.1) := by
  intro t out
  have hw : t.WF := Tree.WF_run _ ops (Tree.WF_empty version)
  have hs := Tree.sorted t hw
  have ho : out = _ := C04_iterator version ops start stop asc (t.toList.length + 1)
  have hle : (t.toList.filter (fun p => inRange start stop p.1)).length ≤ t.toList.length :=
    List.length_filter_le _ _
  rw [List.take_of_length_le (by
    change List.length (if asc then (t.toList.filter _) else (t.toList.filter _).reverse) ≤ _
    cases asc <;> simp <;> omega)] at ho
  constructor
  · intro k v
    rw [ho, Tree.get_some _ _ _ hw]
    cases asc <;> simp [t, and_comm]
  · rw [ho]
    have := List.Pairwise.filter (fun p => inRange start stop p.1) hs
    cases asc
    · simpa [List.pairwise_reverse] using this
    · simpa using this

example : (((Tree.empty 0).run [.set [1] [10], .set [2] [20], .set [3] [30], .set [4] [40]]).iterator
    (some [2]) (some [4]) true).collect 5 = [([2], [20]), ([3], [30])] := by decide +kernel
example : (((Tree.empty 0).run [.set [1] [10], .set [2] [20], .set [3] [30], .set [4] [40]]).iterator
    none (some [4]) false).collect 5 = [([3], [30]), ([2], [20]), ([1], [10])] := by decide +kernel

end MemIAVL
