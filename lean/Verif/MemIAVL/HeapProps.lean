import Verif.MemIAVL.HeapLemmas5
import Verif.MemIAVL.SnapshotSpec
import Verif.MemIAVL.SnapshotProps
/-!
# C05 and C41: copies are isolated, cached root hashes are right

The heap model (`Verif/MemIAVL/Heap.lean`) has mutable cells shared between trees.  The specification has none: a list
of independent stores, where an operation on one store leaves all others as they are.
-/
namespace MemIAVL
open Varint

/-- Specification: one abstract content per tree.  `copy` adds a store with the same content; no operation on a tree
touches another one. -/
def storesStep (cs : List Content) : HOp → List Content
  | .set i k v => cs.modify i (·.apply (.set k v))
  | .remove i k => cs.modify i (·.apply (.remove k))
  | .save _ => cs
  | .rootHash _ => cs
  | .copy i => match cs[i]? with
    | some c => cs ++ [c]
    | none => cs

/-- Specification for the whole tree value (keys, values, node versions, shape): one private tree per index. -/
def treesStep (ts : List Tree) : HOp → List Tree
  | .set i k v => ts.modify i (·.step (.set k v))
  | .remove i k => ts.modify i (·.step (.remove k))
  | .save i => ts.modify i (·.step .save)
  | .rootHash _ => ts
  | .copy i => match ts[i]? with
    | some t => ts ++ [t]
    | none => ts

/-- What `OpenDB` may start from: well-formed trees whose nodes are not younger than the tree. -/
def Loadable (t : Tree) : Prop := t.WF ∧ ∀ n, t.root = some n → ∀ v ∈ n.versions, v ≤ t.version

theorem treesStep_eq : treesStep = privateStep := by
  funext ts op; cases op <;> rfl

theorem verLe_of_versions {n : Node} {b : Nat} (h : ∀ v ∈ n.versions, v ≤ b) : n.VerLe b := by
  induction n with
  | leaf => exact h _ (by simp [Node.versions])
  | branch _ _ _ _ _ _ ihl ihr =>
    exact ⟨h _ (by simp [Node.versions]), ihl fun v hv => h v (by simp [Node.versions, hv]),
      ihr fun v hv => h v (by simp [Node.versions, hv])⟩

theorem load_inv (H : Bytes → Bytes) (ts : List Tree) (hl : ∀ t ∈ ts, Loadable t) : SysInv H (HSys.load ts) ts := by
  refine ⟨by simp [HSys.load], fun _ => [], fun _ => [], ?_, by simp⟩
  intro i ht t e1 e2
  simp only [HSys.load, List.getElem?_map, e2, Option.map_some, Option.some.injEq] at e1
  subst e1
  have hl := hl t (List.mem_of_getElem? e2)
  refine ⟨rfl, by simp, hl.1, by simp, ?_⟩
  cases hr : t.root with
  | none => exact .inl ⟨by simp, rfl, rfl, rfl⟩
  | some n =>
    have hv := verLe_of_versions (hl.2 n hr)
    exact .inr ⟨.pers n, n, by simp, rfl, .pers n, hv.mono (by simp), fun _ => hv⟩

/-- C05.  Several trees share memory cells.  After any schedule of writes, saves, root hash computations and copies
(a copy only of a tree without unsaved writes), every tree reads back, through any walk, exactly the private tree its own
operations produce: no write through one tree is visible in another, in either direction. -/
theorem C05_copies_isolated (H : Bytes → Bytes) (ts : List Tree) (hl : ∀ t ∈ ts, Loadable t) (ops : List HOp) (s : HSys)
    (h : (HSys.load ts).run H ops = some s) :
    s.trees.length = (ops.foldl treesStep ts).length ∧
    ∀ i t, (ops.foldl treesStep ts)[i]? = some t → s.readTree i = some t := by
  have hi := (load_inv H ts hl).run ops h
  rw [treesStep_eq]
  exact ⟨hi.len, fun i t e => hi.readTree e⟩

theorem contents_fold (ts : List Tree) (hl : ∀ t ∈ ts, t.WF) (ops : List HOp) :
    (∀ t ∈ ops.foldl treesStep ts, t.WF) ∧
    (ops.foldl treesStep ts).map (fun t => (fun k => t.get k : Content)) =
      ops.foldl storesStep (ts.map fun t => (fun k => t.get k : Content)) := by
  induction ops generalizing ts with
  | nil => exact ⟨hl, rfl⟩
  | cons op ops ih =>
    simp only [List.foldl_cons]
    have key : ∀ (i : Nat) (o : Op), (∀ t ∈ ts.modify i (·.step o), t.WF) ∧
        (ts.modify i (·.step o)).map (fun t => (fun k => t.get k : Content)) =
          (ts.map fun t => (fun k => t.get k : Content)).modify i (fun c => Content.apply c o) := by
      intro i o
      constructor
      · intro t ht
        obtain ⟨j, hj⟩ := List.getElem?_of_mem ht
        rw [List.getElem?_modify] at hj
        cases e : ts[j]? with
        | none => simp [e] at hj
        | some t0 =>
          have h0 := hl t0 (List.mem_of_getElem? e)
          simp only [e, Option.map_eq_map, Option.map_some, Option.some.injEq] at hj
          split at hj
          · subst hj; exact t0.WF_step o h0
          · subst hj; exact h0
      · apply List.ext_getElem?
        intro j
        simp only [List.getElem?_map, List.getElem?_modify]
        cases e : ts[j]? with
        | none => simp
        | some t0 =>
          have h0 := hl t0 (List.mem_of_getElem? e)
          simp only [Option.map_eq_map, Option.map_some, Option.some.injEq]
          split
          · funext k
            rw [Tree.get_step t0 o k h0]
          · rfl
    have st : (∀ t ∈ treesStep ts op, t.WF) ∧ (treesStep ts op).map (fun t => (fun k => t.get k : Content)) =
        storesStep (ts.map fun t => (fun k => t.get k : Content)) op := by
      cases op with
      | set i k v => exact key i (.set k v)
      | remove i k => exact key i (.remove k)
      | save i =>
        have := key i .save
        refine ⟨this.1, this.2.trans ?_⟩
        simp only [storesStep]
        apply List.ext_getElem?
        intro j
        rw [List.getElem?_modify]
        cases (ts.map fun t => (fun k => t.get k : Content))[j]? with
        | none => rfl
        | some c => simp [Content.apply]
      | rootHash i => exact ⟨hl, rfl⟩
      | copy i =>
        simp only [treesStep, storesStep, List.getElem?_map]
        cases e : ts[i]? with
        | none => exact ⟨hl, rfl⟩
        | some t =>
          have h0 := hl t (List.mem_of_getElem? e)
          simp only [Option.map_some, List.map_append, List.map_cons, List.map_nil]
          refine ⟨?_, trivial⟩
          intro t' ht'
          simp only [List.mem_append, List.mem_singleton] at ht'
          rcases ht' with ht' | rfl
          · exact hl t' ht'
          · exact h0
    have := ih _ st.1
    rw [st.2] at this
    exact this

/-- C05, through lookups: `Get` on the `i`-th tree returns what was last written through that tree (or, before it was
copied, through the tree it was copied from). -/
theorem C05_lookups (H : Bytes → Bytes) (ts : List Tree) (hl : ∀ t ∈ ts, Loadable t) (ops : List HOp) (s : HSys)
    (h : (HSys.load ts).run H ops = some s) (i : Nat) (c : Content)
    (hc : (ops.foldl storesStep (ts.map fun t => (fun k => t.get k : Content)))[i]? = some c) (key : Key) :
    (s.get i key).map (·.1) = some (c key) := by
  have hi := (load_inv H ts hl).run ops h
  rw [← (contents_fold ts (fun t ht => (hl t ht).1) ops).2, List.getElem?_map, treesStep_eq] at hc
  cases e : (ops.foldl privateStep ts)[i]? with
  | none => simp [e] at hc
  | some t =>
    simp only [e, Option.map_some, Option.some.injEq] at hc
    rw [hi.getVal e key, ← hc]
    rfl

/-- C05, progress: in every reachable state an operation on an existing tree succeeds; the only refusal is copying a
tree with unsaved writes. -/
theorem C05_progress (H : Bytes → Bytes) (ts : List Tree) (hl : ∀ t ∈ ts, Loadable t) (ops : List HOp) (s : HSys)
    (h : (HSys.load ts).run H ops = some s) (op : HOp) :
    (∃ s', s.step H op = some s') ↔
      match op with
      | .set i _ _ | .remove i _ | .save i | .rootHash i => i < s.trees.length
      | .copy i => ∃ t, s.trees[i]? = some t ∧ t.dirty = false := by
  have hi := (load_inv H ts hl).run ops h
  constructor
  · rintro ⟨s', e⟩
    have := hi.allowed_of_step op e
    cases op <;> exact this
  · intro ha
    obtain ⟨s', e, _⟩ := hi.step op (by cases op <;> exact ha)
    exact ⟨s', e⟩

/-- C41.  The root hash that `RootHash` returns, using hashes cached in the cells and shared between copies, is the hash
recomputed from the tree's content, in every reachable state. -/
theorem C41_cached_root_hash (H : Bytes → Bytes) (ts : List Tree) (hl : ∀ t ∈ ts, Loadable t) (ops : List HOp) (s : HSys)
    (h : (HSys.load ts).run H ops = some s) (i : Nat) (hlt : i < s.trees.length) :
    ∃ t s', s.readTree i = some t ∧ s.rootHash H i = some (s', t.rootHash H) := by
  have hi := (load_inv H ts hl).run ops h
  have hlt' : i < (ops.foldl privateStep ts).length := by have := hi.len; omega
  have e := List.getElem?_eq_getElem hlt'
  obtain ⟨s', e2, _⟩ := hi.rootHash e
  exact ⟨_, s', hi.readTree e, e2⟩

/-- C41.  Asking for root hashes changes nothing any tree shows. -/
theorem C41_root_hash_reads_only (H : Bytes → Bytes) (ts : List Tree) (hl : ∀ t ∈ ts, Loadable t) (ops : List HOp) (s s' : HSys)
    (h : (HSys.load ts).run H ops = some s) (i : Nat) (x : Bytes) (hr : s.rootHash H i = some (s', x)) (j : Nat)
    (hj : j < s.trees.length) : s'.readTree j = s.readTree j := by
  have hi := (load_inv H ts hl).run ops h
  have hlt' : j < (ops.foldl privateStep ts).length := by have := hi.len; omega
  have e := List.getElem?_eq_getElem hlt'
  have hil : i < (ops.foldl privateStep ts).length := by
    have hne : s.trees[i]? ≠ none := fun e => by simp [HSys.rootHash, e] at hr
    have := hi.len
    simp at hne; omega
  obtain ⟨s2, e2, hi2⟩ := hi.rootHash (List.getElem?_eq_getElem hil)
  rw [hr] at e2
  cases e2
  rw [hi.readTree e, hi2.readTree e]

/-- A schedule: fill a tree, save, copy it, write through both, hash in between. -/
def exampleSchedule : List HOp :=
  [.set 0 [1] [10], .set 0 [2] [20], .set 0 [3] [30], .save 0, .rootHash 0, .copy 0, .set 0 [2] [21], .remove 1 [1],
   .rootHash 1, .save 1, .set 1 [4] [40], .remove 0 [3], .rootHash 0]

/-- The hypotheses of the C05/C41 theorems are met by a schedule that shares cells; the two trees end up different. -/
example : Loadable (Tree.empty 0) ∧ ∃ s, (HSys.load [Tree.empty 0]).run toyHash exampleSchedule = some s ∧
    s.trees.length = 2 ∧ (s.get 0 [2]).map (·.1) = some (some [21]) ∧ (s.get 1 [2]).map (·.1) = some (some [20]) ∧
    (s.get 0 [1]).map (·.1) = some (some [10]) ∧ (s.get 1 [1]).map (·.1) = some none := by
  refine ⟨⟨Tree.WF_empty 0, by simp [Tree.empty]⟩, _, rfl, ?_⟩
  decide +kernel

/-- The restriction on copies is needed: `Tree.Copy` itself (tree.go 119-128) accepts a tree with unsaved writes, and
then a write through the original shows up in the copy. -/
theorem C05_copy_of_unsaved_tree_not_isolated :
    ∃ s, (do let s ← (HSys.load [Tree.empty 0]).set 0 [1] [10]
             let s ← s.copyRaw 0
             s.set 0 [1] [11]) = some s ∧ (s.get 1 [1]).map (·.1) = some (some [11]) := by
  refine ⟨_, rfl, ?_⟩
  decide +kernel

end MemIAVL
