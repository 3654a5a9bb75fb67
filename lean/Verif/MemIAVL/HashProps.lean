import Verif.MemIAVL.Hash
import Verif.MemIAVL.Props
/-! # memiavl: root hash and membership proof theorems C08, C09 -/
namespace MemIAVL
open Varint

variable (H : Bytes → Bytes)

/-- All byte strings hashed while computing the hash of a node. -/
def Node.hashed : Node → List Bytes
  | n@(.leaf _ v _) => [n.preimage H, v]
  | n@(.branch _ _ _ _ l r) => n.preimage H :: (l.hashed ++ r.hashed)

/-- All byte strings hashed while computing a root hash. -/
def Tree.hashed (t : Tree) : List Bytes :=
  match t.root with
  | none => [[]]
  | some n => n.hashed H

/-- Two concrete different byte strings, one from each list, with equal digest.  (That *some* collision exists is
true of any hash function; here it has to be found among the strings actually hashed.) -/
def Collision (S T : List Bytes) : Prop := ∃ x ∈ S, ∃ y ∈ T, x ≠ y ∧ H x = H y

theorem Collision.mono {S T S' T'} (h : Collision H S T) (hs : ∀ x ∈ S, x ∈ S') (ht : ∀ x ∈ T, x ∈ T') :
    Collision H S' T' := by
  obtain ⟨x, hx, y, hy, h⟩ := h
  exact ⟨x, hs x hx, y, ht y hy, h⟩

theorem Node.hash_eq (n : Node) : n.hash H = H (n.preimage H) := by
  cases n <;> rfl

theorem Node.preimage_mem (n : Node) : n.preimage H ∈ n.hashed H := by
  cases n <;> simp [Node.hashed]

theorem Node.minKey_unique {k k' : Key} {l : List (Key × Val)} (h : IsMin k l) (h' : IsMin k' l) : k = k' := by
  obtain ⟨h1, p, hp, rfl⟩ := h
  obtain ⟨h2, q, hq, rfl⟩ := h'
  have := h1 q hq; have := h2 p hp; grind

theorem Node.hash_inj (n : Node) : ∀ m : Node, n.Ordered → m.Ordered → n.Exact → m.Exact →
    n.hash H = m.hash H → n = m ∨ Collision H (n.hashed H) (m.hashed H) := by
  induction n with
  | leaf k v ver =>
    intro m _ _ _ hm he
    rw [Node.hash_eq, Node.hash_eq H m] at he
    by_cases hp : (Node.leaf k v ver).preimage H = m.preimage H
    · cases m with
      | leaf k' v' ver' =>
        simp only [Node.preimage, List.append_assoc] at hp
        obtain ⟨_, hp⟩ := putVarint_inj hp
        obtain ⟨_, hp⟩ := putVarint_inj hp
        obtain ⟨e1, hp⟩ := putVarint_inj hp
        obtain ⟨e2, hp⟩ := encodeBytes_inj hp
        have hv := encodeBytes_inj' hp
        subst e1 e2
        by_cases hvv : v = v'
        · subst hvv; exact .inl rfl
        · exact .inr ⟨v, by simp [Node.hashed], v', by simp [Node.hashed], hvv, hv⟩
      | branch h' s' ver' k' l' r' =>
        simp only [Node.preimage, List.append_assoc] at hp
        obtain ⟨h0, _⟩ := putVarint_inj hp
        have := hm.2.2.1
        omega
    · exact .inr ⟨_, Node.preimage_mem H _, _, Node.preimage_mem H m, hp, he⟩
  | branch h s ver k l r ihl ihr =>
    intro m hno hmo hn hm he
    rw [Node.hash_eq, Node.hash_eq H m] at he
    by_cases hp : (Node.branch h s ver k l r).preimage H = m.preimage H
    · cases m with
      | leaf k' v' ver' =>
        simp only [Node.preimage, List.append_assoc] at hp
        obtain ⟨h0, _⟩ := putVarint_inj hp
        have := hn.2.2.1
        omega
      | branch h' s' ver' k' l' r' =>
        simp only [Node.preimage, List.append_assoc] at hp
        obtain ⟨e1, hp⟩ := putVarint_inj hp
        obtain ⟨e2, hp⟩ := putVarint_inj hp
        obtain ⟨e3, hp⟩ := putVarint_inj hp
        obtain ⟨hl, hp⟩ := encodeBytes_inj hp
        have hr := encodeBytes_inj' hp
        subst e1 e2 e3
        rcases ihl l' hno.1 hmo.1 hn.1 hm.1 hl with rfl | hc
        · rcases ihr r' hno.2.1 hmo.2.1 hn.2.1 hm.2.1 hr with rfl | hc
          · have : k = k' := Node.minKey_unique ⟨hno.2.2.2.1, hno.2.2.2.2⟩ ⟨hmo.2.2.2.1, hmo.2.2.2.2⟩
            subst this; exact .inl rfl
          · exact .inr (hc.mono H (by simp +contextual [Node.hashed]) (by simp +contextual [Node.hashed]))
        · exact .inr (hc.mono H (by simp +contextual [Node.hashed]) (by simp +contextual [Node.hashed]))
    · exact .inr ⟨_, Node.preimage_mem H _, _, Node.preimage_mem H m, hp, he⟩

theorem Node.preimage_ne_nil (n : Node) : n.preimage H ≠ [] := by
  cases n <;> simp [Node.preimage, putVarint, putUvarint_ne_nil]

/-- **C08** Root hashes commit to the whole tree: two reachable trees (any histories, any start versions) with equal root
hash have the same root node — same shape, keys, values, versions, heights, sizes, branch keys — unless
two different strings among those hashed for the two trees have the same digest. -/
theorem C08_rootHash_injective (v1 v2 : Nat) (ops1 ops2 : List Op) :
    let t1 := (Tree.empty v1).run ops1
    let t2 := (Tree.empty v2).run ops2
    t1.rootHash H = t2.rootHash H →
      t1.root = t2.root ∨ Collision H (t1.hashed H) (t2.hashed H) := by
  intro t1 t2 he
  have hw1 : t1.WF := Tree.WF_run _ ops1 (Tree.WF_empty v1)
  have hw2 : t2.WF := Tree.WF_run _ ops2 (Tree.WF_empty v2)
  unfold Tree.rootHash at he
  unfold Tree.hashed
  cases h1 : t1.root with
  | none =>
    cases h2 : t2.root with
    | none => exact .inl rfl
    | some m =>
      simp only [h1, h2, Node.hash_eq] at he
      exact .inr ⟨[], by simp, _, Node.preimage_mem H m, (Node.preimage_ne_nil H m).symm, he⟩
  | some n =>
    cases h2 : t2.root with
    | none =>
      simp only [h1, h2, Node.hash_eq] at he
      exact .inr ⟨_, Node.preimage_mem H n, [], by simp, Node.preimage_ne_nil H n, he⟩
    | some m =>
      simp only [h1, h2] at he
      rcases Node.hash_inj H n m (hw1 n h1).ordered (hw2 m h2).ordered (hw1 n h1).exact (hw2 m h2).exact he with
        rfl | hc
      · exact .inl rfl
      · exact .inr hc

/-- **C08** Consequence for the content: with a collision-free `H`, equal root hashes mean equal answers to every `Get`. -/
theorem C08_rootHash_content (hH : ∀ x y, H x = H y → x = y) (v1 v2 : Nat) (ops1 ops2 : List Op)
    (he : ((Tree.empty v1).run ops1).rootHash H = ((Tree.empty v2).run ops2).rootHash H) (k : Key) :
    ((Tree.empty v1).run ops1).get k = ((Tree.empty v2).run ops2).get k := by
  rcases C08_rootHash_injective H v1 v2 ops1 ops2 he with h | ⟨x, _, y, _, hne, he⟩
  · simp [Tree.get, Tree.getWithIndex, h]
  · exact absurd (hH x y he) hne

/-- A hash function without collisions exists (identity), so the previous theorem is not vacuous; and
different contents do get different root hashes under it. -/
example : (∀ x y : Bytes, id x = id y → x = y) ∧
    ((Tree.empty 0).run [.set [1] [1]]).rootHash id ≠ ((Tree.empty 0).run [.set [1] [2]]).rootHash id := by
  refine ⟨fun _ _ h => h, ?_⟩
  simp [Tree.run, Tree.step, Tree.set, Tree.empty, Tree.rootHash, Node.hash, encodeBytes]

/-! ### Existence proofs -/

/-- Root hash computed from a path (root first) and a leaf (proof device). -/
def rootOf (k : Key) (v : Val) (ver : Nat) : List InnerStep → Bytes
  | [] => H (leafPrefix ver ++ encodeBytes k ++ encodeBytes (H v))
  | st :: p => applyInner H (convertInnerOp st) (rootOf k v ver p)

theorem calculate_eq (k v ver) (p : List InnerStep) :
    ExistenceProof.calculate H
      { key := k, value := v, leafPrefix := leafPrefix ver, path := convertInnerOps p } = rootOf H k v ver p := by
  unfold ExistenceProof.calculate
  simp only [convertInnerOps, List.foldl_map, List.foldl_reverse, applyLeaf]
  induction p with
  | nil => rfl
  | cons st p ih => simp only [List.foldr_cons, rootOf]; rw [ih]

theorem encodeBytes32 (x : Bytes) (h : x.length = 32) : encodeBytes x = 0x20 :: x := by
  unfold encodeBytes
  have : putUvarint 32 = [0x20] := by unfold putUvarint; rfl
  rw [h, this]; rfl

theorem Node.hash_length (hlen : ∀ x, (H x).length = 32) (n : Node) : (n.hash H).length = 32 := by
  rw [Node.hash_eq]; exact hlen _

theorem pathToLeaf_rootOf (hlen : ∀ x, (H x).length = 32) (key : Key) (n : Node) :
    ∀ p k v ver, pathToLeaf H key n = some (p, k, v, ver) →
      rootOf H k v ver p = n.hash H ∧ k = key ∧ (k, v) ∈ n.toList := by
  induction n with
  | leaf k' v' ver' =>
    intro p k v ver h
    simp only [pathToLeaf] at h
    split at h
    · simp only [Option.some.injEq, Prod.mk.injEq] at h
      obtain ⟨rfl, rfl, rfl, rfl⟩ := h
      refine ⟨by simp [rootOf, Node.hash, leafPrefix], by assumption, by simp [Node.toList]⟩
    · simp at h
  | branch hh s ver' k' l r ihl ihr =>
    intro p k v ver h
    have hl := encodeBytes32 _ (Node.hash_length H hlen l)
    have hr := encodeBytes32 _ (Node.hash_length H hlen r)
    simp only [pathToLeaf] at h
    split at h
    · cases hp : pathToLeaf H key l with
      | none => simp [hp] at h
      | some q =>
        obtain ⟨q, k2, v2, ver2⟩ := q
        simp only [hp, Option.map_some, Option.some.injEq, Prod.mk.injEq] at h
        obtain ⟨rfl, rfl, rfl, rfl⟩ := h
        obtain ⟨h1, h2, h3⟩ := ihl _ _ _ _ hp
        refine ⟨?_, h2, by simp [Node.toList, h3]⟩
        simp [rootOf, applyInner, convertInnerOp, Node.hash, h1, hl, hr]
    · cases hp : pathToLeaf H key r with
      | none => simp [hp] at h
      | some q =>
        obtain ⟨q, k2, v2, ver2⟩ := q
        simp only [hp, Option.map_some, Option.some.injEq, Prod.mk.injEq] at h
        obtain ⟨rfl, rfl, rfl, rfl⟩ := h
        obtain ⟨h1, h2, h3⟩ := ihr _ _ _ _ hp
        refine ⟨?_, h2, by simp [Node.toList, h3]⟩
        simp [rootOf, applyInner, convertInnerOp, Node.hash, h1, hl, hr]

theorem pathToLeaf_complete (key : Key) (n : Node) (ho : n.Ordered) (v : Val) (h : (key, v) ∈ n.toList) :
    ∃ q, pathToLeaf H key n = some q := by
  induction n with
  | leaf k' v' ver' => simp only [Node.toList, List.mem_singleton, Prod.mk.injEq] at h; simp [pathToLeaf, h.1]
  | branch hh s ver' k' l r ihl ihr =>
    obtain ⟨hl, hr, h1, h2, _⟩ := ho
    simp only [Node.toList, List.mem_append] at h
    simp only [pathToLeaf]
    split
    · obtain ⟨q, hq⟩ := ihl hl (by rcases h with h | h; exact h; have := h2 _ h; grind)
      simp [hq]
    · obtain ⟨q, hq⟩ := ihr hr (by rcases h with h | h; have := h1 _ h; grind; exact h)
      simp [hq]

/-- **C09 (completeness)** For a reachable tree and a 32-byte hash, a proof is created for `key` exactly when the key is
stored; it carries the stored value, and its calculation gives the root hash. -/
theorem C09_membership_complete (hlen : ∀ x, (H x).length = 32) (version : Nat) (ops : List Op) (n : Node)
    (hn : ((Tree.empty version).run ops).root = some n) (key : Key) :
    (∀ v, contentAfter ops key = some v → ∃ p, createExistenceProof H n key = some p ∧
      p.key = key ∧ p.value = v ∧ p.calculate H = ((Tree.empty version).run ops).rootHash H) ∧
    (contentAfter ops key = none → createExistenceProof H n key = none) := by
  have hw := Tree.WF_run _ ops (Tree.WF_empty version)
  have hc : ∀ v, contentAfter ops key = some v ↔ (key, v) ∈ n.toList := by
    intro v
    have h1 : ((Tree.empty version).run ops).get key = contentAfter ops key := C01_get_eq_content version ops key
    rw [← h1, Tree.get_some _ _ _ hw]; simp [Tree.toList, hn]
  constructor
  · intro v hv
    obtain ⟨⟨p, k, v', ver⟩, hq⟩ := pathToLeaf_complete H key n (hw n hn).ordered v ((hc v).1 hv)
    obtain ⟨h1, rfl, h3⟩ := pathToLeaf_rootOf H hlen key n _ _ _ _ hq
    have hv' : v' = v := by
      have := (hc v').2 h3; rw [hv] at this; exact (Option.some.inj this).symm
    subst hv'
    refine ⟨{ key := k, value := v', leafPrefix := leafPrefix ver, path := convertInnerOps p },
      by simp only [createExistenceProof, hq, Option.map_some], rfl, rfl, ?_⟩
    rw [calculate_eq, h1]; simp [Tree.rootHash, hn]
  · intro hnone
    cases hq : pathToLeaf H key n with
    | none => simp [createExistenceProof, hq]
    | some q =>
      obtain ⟨p, k, v', ver⟩ := q
      obtain ⟨h1, rfl, h3⟩ := pathToLeaf_rootOf H hlen key n _ _ _ _ hq
      rw [(hc v').2 h3] at hnone; simp at hnone

example : ∃ p, createExistenceProof (fun _ => List.replicate 32 7)
      (.branch 1 2 1 [2] (.leaf [1] [10] 1) (.leaf [2] [20] 1)) [2] = some p ∧ p.value = [20] ∧ p.path.length = 1 := by
  simp [createExistenceProof, pathToLeaf, convertInnerOps]

/-- Strings hashed by the verifier of a path proof. -/
def proofHashed (k : Key) (v : Val) (ver : Nat) : List InnerStep → List Bytes
  | [] => [leafPrefix ver ++ encodeBytes k ++ encodeBytes (H v), v]
  | st :: p => ((convertInnerOp st).pre ++ rootOf H k v ver p ++ (convertInnerOp st).suf) :: proofHashed k v ver p

theorem rootOf_length (hlen : ∀ x, (H x).length = 32) (k v ver p) : (rootOf H k v ver p).length = 32 := by
  cases p <;> simp [rootOf, applyInner, hlen]

theorem soundness_aux (hlen : ∀ x, (H x).length = 32) (k v ver) (p : List InnerStep)
    (hok : ∀ st ∈ p, st.height ≠ 0 ∧ (∀ x, st.left = some x → x.length = 32)) :
    ∀ n : Node, n.Exact → rootOf H k v ver p = n.hash H →
      (k, v) ∈ n.toList ∨ Collision H (proofHashed H k v ver p) (n.hashed H) := by
  induction p with
  | nil =>
    intro n hx he
    rw [Node.hash_eq] at he
    by_cases hp : leafPrefix ver ++ encodeBytes k ++ encodeBytes (H v) = n.preimage H
    · cases n with
      | leaf k' v' ver' =>
        simp only [leafPrefix, Node.preimage, List.append_assoc] at hp
        obtain ⟨_, hp⟩ := putVarint_inj hp
        obtain ⟨_, hp⟩ := putVarint_inj hp
        obtain ⟨e1, hp⟩ := putVarint_inj hp
        obtain ⟨e2, hp⟩ := encodeBytes_inj hp
        have hv := encodeBytes_inj' hp
        subst e1 e2
        by_cases hvv : v = v'
        · subst hvv; exact .inl (by simp [Node.toList])
        · exact .inr ⟨v, by simp [proofHashed], v', by simp [Node.hashed], hvv, hv⟩
      | branch h' s' ver' k' l' r' =>
        simp only [leafPrefix, Node.preimage, List.append_assoc] at hp
        obtain ⟨h0, _⟩ := putVarint_inj hp
        have := hx.2.2.1
        omega
    · exact .inr ⟨_, by simp [proofHashed], _, Node.preimage_mem H n, hp, he⟩
  | cons st p ih =>
    intro n hx he
    have ih := ih (fun st hst => hok st (by simp [hst]))
    have hst := hok st (by simp)
    have hlr := rootOf_length H hlen k v ver p
    rw [Node.hash_eq] at he
    simp only [rootOf, applyInner] at he
    by_cases hp : (convertInnerOp st).pre ++ rootOf H k v ver p ++ (convertInnerOp st).suf = n.preimage H
    · cases n with
      | leaf k' v' ver' =>
        exfalso
        simp only [convertInnerOp] at hp
        cases hleft : st.left with
        | none =>
          simp only [hleft, Node.preimage, List.append_assoc] at hp
          exact hst.1 (putVarint_inj hp).1
        | some x =>
          simp only [hleft, Node.preimage, List.append_assoc] at hp
          exact hst.1 (putVarint_inj hp).1
      | branch h' s' ver' k' l' r' =>
        have hl := encodeBytes32 _ (Node.hash_length H hlen l')
        have hr := encodeBytes32 _ (Node.hash_length H hlen r')
        have hll := Node.hash_length H hlen l'
        simp only [convertInnerOp] at hp
        cases hleft : st.left with
        | none =>
          simp only [hleft, Node.preimage, List.append_assoc, hl, hr] at hp
          obtain ⟨_, hp⟩ := putVarint_inj hp
          obtain ⟨_, hp⟩ := putVarint_inj hp
          obtain ⟨_, hp⟩ := putVarint_inj hp
          simp only [List.cons_append, List.nil_append, List.cons.injEq, true_and] at hp
          obtain ⟨hp, _⟩ := List.append_inj hp (by rw [hlr, hll])
          rcases ih l' hx.1 hp with h | h
          · exact .inl (by simp [Node.toList, h])
          · exact .inr (h.mono H (by simp +contextual [proofHashed]) (by simp +contextual [Node.hashed]))
        | some x =>
          have hxl := hst.2 x hleft
          simp only [hleft, Node.preimage, List.append_assoc, hl, hr] at hp
          obtain ⟨_, hp⟩ := putVarint_inj hp
          obtain ⟨_, hp⟩ := putVarint_inj hp
          obtain ⟨_, hp⟩ := putVarint_inj hp
          simp only [List.cons_append, List.nil_append, List.cons.injEq, true_and, List.append_nil] at hp
          obtain ⟨_, hp⟩ := List.append_inj hp (by rw [hxl, hll])
          simp only [List.cons.injEq, true_and] at hp
          rcases ih r' hx.2.1 hp with h | h
          · exact .inl (by simp [Node.toList, h])
          · exact .inr (h.mono H (by simp +contextual [proofHashed]) (by simp +contextual [Node.hashed]))
    · exact .inr ⟨_, by simp [proofHashed], _, Node.preimage_mem H n, hp, he⟩

/-- **C09 (soundness)** Take any existence proof of the shape the code produces: any leaf version and any list of inner steps
whose height byte is not that of a leaf (this is what the ics23 spec check on the inner prefix enforces) and whose
left sibling, if given, is a 32-byte digest.  If it calculates to the root hash of a reachable tree, then the claimed pair
is stored, or two different strings hashed by verifier and tree collide. -/
theorem C09_membership_sound (hlen : ∀ x, (H x).length = 32) (version : Nat) (ops : List Op) (n : Node)
    (hn : ((Tree.empty version).run ops).root = some n) (k : Key) (v : Val) (ver : Nat) (path : List InnerStep)
    (hok : ∀ st ∈ path, st.height ≠ 0 ∧ (∀ x, st.left = some x → x.length = 32))
    (hcalc : ExistenceProof.calculate H
      { key := k, value := v, leafPrefix := leafPrefix ver, path := convertInnerOps path } =
        ((Tree.empty version).run ops).rootHash H) :
    ((Tree.empty version).run ops).get k = some v ∨
      Collision H (proofHashed H k v ver path) (((Tree.empty version).run ops).hashed H) := by
  have hw := Tree.WF_run _ ops (Tree.WF_empty version)
  rw [calculate_eq] at hcalc
  simp only [Tree.rootHash, hn] at hcalc
  rw [Tree.get_some _ _ _ hw]
  have := soundness_aux H hlen k v ver path hok n (hw n hn).exact hcalc
  simpa [Tree.toList, Tree.hashed, hn] using this

/-- The hypotheses are met by every proof the code creates: its path has non-zero heights and 32-byte siblings. -/
theorem C09_created_proofs_admissible (hlen : ∀ x, (H x).length = 32) (key : Key) (n : Node) (hx : n.Exact) :
    ∀ p k v ver, pathToLeaf H key n = some (p, k, v, ver) →
      ∀ st ∈ p, st.height ≠ 0 ∧ (∀ x, st.left = some x → x.length = 32) := by
  induction n with
  | leaf k' v' ver' =>
    intro p k v ver h
    simp only [pathToLeaf] at h
    split at h <;> simp at h
    simp [h]
  | branch hh s ver' k' l r ihl ihr =>
    intro p k v ver h
    obtain ⟨hl, hr, h1, _⟩ := hx
    simp only [pathToLeaf] at h
    split at h
    · cases hp : pathToLeaf H key l with
      | none => simp [hp] at h
      | some q =>
        obtain ⟨q, k2, v2, ver2⟩ := q
        simp only [hp, Option.map_some, Option.some.injEq, Prod.mk.injEq] at h
        obtain ⟨rfl, _⟩ := h
        intro st hst
        rcases List.mem_cons.1 hst with rfl | hst
        · exact ⟨by simp; omega, by simp⟩
        · exact ihl hl _ _ _ _ hp st hst
    · cases hp : pathToLeaf H key r with
      | none => simp [hp] at h
      | some q =>
        obtain ⟨q, k2, v2, ver2⟩ := q
        simp only [hp, Option.map_some, Option.some.injEq, Prod.mk.injEq] at h
        obtain ⟨rfl, _⟩ := h
        intro st hst
        rcases List.mem_cons.1 hst with rfl | hst
        · refine ⟨by simp; omega, ?_⟩
          intro x hx2; simp only [Option.some.injEq] at hx2; subst hx2; exact Node.hash_length H hlen l
        · exact ihr hr _ _ _ _ hp st hst

end MemIAVL
