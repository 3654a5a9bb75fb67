import Verif.MemIAVL.Lemmas
/-! Helper lemmas: removal, lookup, rank/select. -/
set_option linter.unusedSimpArgs false
namespace MemIAVL

/-- Pairs of an optional node (proof device). -/
def optList : Option Node → List (Key × Val)
  | none => []
  | some n => n.toList

/-- `k` is the smallest key (proof device). -/
def IsMin (k : Key) (l : List (Key × Val)) : Prop := (∀ p ∈ l, k ≤ p.1) ∧ ∃ p ∈ l, p.1 = k

theorem del_append (k) (xs ys : List (Key × Val)) : del k (xs ++ ys) = del k xs ++ del k ys := by
  simp [del]

theorem del_eq_self {k} {xs : List (Key × Val)} (h : ∀ p ∈ xs, p.1 ≠ k) : del k xs = xs := by
  simp only [del, List.filter_eq_self, decide_eq_true_eq]; exact fun a ha => h a ha

theorem mem_del {k} {xs : List (Key × Val)} {p} : p ∈ del k xs ↔ p ∈ xs ∧ p.1 ≠ k := by
  simp [del]

namespace Node

/-- What `removeRec` returns, in terms of the list of pairs. -/
structure RemSpec (key : Key) (n : Node) (res : Option Val × Option Node × Option Key) : Prop where
  notFound : res.1 = none → (∀ p ∈ n.toList, p.1 ≠ key) ∧ res.2.1 = some n ∧ res.2.2 = none
  found : ∀ v, res.1 = some v → (key, v) ∈ n.toList
  list : optList res.2.1 = del key n.toList
  ordered : ∀ m, res.2.1 = some m → m.Ordered
  newKey : ∀ k', res.2.2 = some k' → IsMin k' (optList res.2.1)
  noNewKey : res.2.2 = none → ∀ m, res.2.1 = some m → ∀ k', IsMin k' n.toList → IsMin k' m.toList

theorem removeRec_spec (key version) (n : Node) (h : n.Ordered) :
    RemSpec key n (n.removeRec key version) := by
  induction n with
  | leaf k v ver =>
    unfold removeRec
    split
    · constructor <;> simp_all [optList, toList, del]
    · constructor <;> simp_all [optList, toList, del, Ordered]
  | branch hh s ver k l r ihl ihr =>
    have h0 := h
    obtain ⟨hl, hr, h1, h2, h3⟩ := h
    have ihl := ihl hl
    have ihr := ihr hr
    unfold removeRec
    split
    · rename_i hlt
      have hrdel : del key r.toList = r.toList := del_eq_self (by grind)
      have hlist := ihl.list
      split
      · rename_i heq
        rw [heq] at ihl
        obtain ⟨a1, a2, a3⟩ := ihl.notFound rfl
        have hldel : del key l.toList = l.toList := del_eq_self a1
        constructor
        · intro _; simp only [toList, List.mem_append]; grind
        · simp
        · simp [optList, toList, del_append, hldel, hrdel]
        · intro m hm; simp only [Option.some.injEq] at hm; subst hm; exact h0
        · simp
        · intro _ m hm k' hk'; simp only [Option.some.injEq] at hm; subst hm; exact hk'
      · rename_i heq
        rw [heq] at ihl hlist
        simp only [optList] at hlist
        constructor
        · simp
        · intro v hv; simp only [Option.some.injEq] at hv; subst hv
          simp only [toList, List.mem_append]; exact Or.inl (ihl.found _ rfl)
        · simp [optList, toList, del_append, hrdel, ← hlist]
        · intro m hm; simp only [Option.some.injEq] at hm; subst hm; exact hr
        · intro k' hk'; simp only [Option.some.injEq] at hk'; subst hk'; exact ⟨h2, h3⟩
        · simp
      · rename_i v l' nk heq
        rw [heq] at ihl hlist
        simp only [optList] at hlist
        have hl' := ihl.ordered _ rfl
        have hlt' : ∀ p ∈ l'.toList, p.1 < k := by
          intro p hp; rw [hlist, mem_del] at hp; exact h1 p hp.1
        constructor
        · simp
        · intro v hv; simp only [Option.some.injEq] at hv; subst hv
          simp only [toList, List.mem_append]; exact Or.inl (ihl.found _ rfl)
        · simp [optList, toList_reBalance, toList, del_append, hrdel, ← hlist]
        · intro m hm; simp only [Option.some.injEq] at hm; subst hm
          exact ordered_reBalance _ _ ⟨hl', hr, hlt', h2, h3⟩
        · intro k' hk'
          obtain ⟨b1, b2⟩ := ihl.newKey k' hk'
          simp only [optList, toList_reBalance, toList_mk] at *
          obtain ⟨q, hq, rfl⟩ := b2
          refine ⟨?_, q, by simp [hq], rfl⟩
          intro p hp
          rcases List.mem_append.1 hp with hp | hp
          · exact b1 p hp
          · have := h2 p hp; have := hlt' q hq; grind
        · intro hnk m hm k' hk'
          simp only [Option.some.injEq] at hm; subst hm
          simp only [toList_reBalance, toList_mk]
          have hkl : IsMin k' l.toList := by
            obtain ⟨b1, q, hq, rfl⟩ := hk'
            simp only [toList, List.mem_append] at b1 hq
            refine ⟨fun p hp => b1 p (Or.inl hp), ?_⟩
            rcases hq with hq | hq
            · exact ⟨q, hq, rfl⟩
            · obtain ⟨z, hz⟩ := List.exists_mem_of_ne_nil _ (toList_ne_nil l)
              have := h1 z hz; have := b1 z (Or.inl hz); have := h2 q hq; grind
          obtain ⟨b1, q, hq, he⟩ := ihl.noNewKey hnk l' rfl k' hkl
          refine ⟨?_, q, by simp [hq], he⟩
          intro p hp
          rcases List.mem_append.1 hp with hp | hp
          · exact b1 p hp
          · have := h2 p hp; have := hlt' q hq; grind
    · rename_i hge
      have hldel : del key l.toList = l.toList := del_eq_self (by grind)
      have hlist := ihr.list
      split
      · rename_i heq
        rw [heq] at ihr
        obtain ⟨a1, a2, a3⟩ := ihr.notFound rfl
        have hrdel : del key r.toList = r.toList := del_eq_self a1
        constructor
        · intro _; simp only [toList, List.mem_append]; grind
        · simp
        · simp [optList, toList, del_append, hldel, hrdel]
        · intro m hm; simp only [Option.some.injEq] at hm; subst hm; exact h0
        · simp
        · intro _ m hm k' hk'; simp only [Option.some.injEq] at hm; subst hm; exact hk'
      · rename_i heq
        rw [heq] at ihr hlist
        simp only [optList] at hlist
        constructor
        · simp
        · intro v hv; simp only [Option.some.injEq] at hv; subst hv
          simp only [toList, List.mem_append]; exact Or.inr (ihr.found _ rfl)
        · simp [optList, toList, del_append, hldel, ← hlist]
        · intro m hm; simp only [Option.some.injEq] at hm; subst hm; exact hl
        · simp
        · intro _ m hm k' hk'; simp only [Option.some.injEq] at hm; subst hm
          obtain ⟨b1, q, hq, rfl⟩ := hk'
          simp only [toList, List.mem_append] at b1 hq
          refine ⟨fun p hp => b1 p (Or.inl hp), ?_⟩
          rcases hq with hq | hq
          · exact ⟨q, hq, rfl⟩
          · obtain ⟨z, hz⟩ := List.exists_mem_of_ne_nil _ (toList_ne_nil l)
            have := h1 z hz; have := b1 z (Or.inl hz); have := h2 q hq; grind
      · rename_i v r' nk heq
        rw [heq] at ihr hlist
        simp only [optList] at hlist
        have hr' := ihr.ordered _ rfl
        have hmin : IsMin (nk.getD k) r'.toList := by
          cases hnk : nk with
          | none => exact ihr.noNewKey (by simp [hnk]) r' rfl k ⟨h2, h3⟩
          | some k' => exact ihr.newKey k' (by simp [hnk])
        have hle : k ≤ nk.getD k := by
          obtain ⟨_, q, hq, he⟩ := hmin
          rw [← he]; rw [hlist, mem_del] at hq; exact h2 q hq.1
        have hord : (mk version (nk.getD k) l r').Ordered :=
          ⟨hl, hr', fun p hp => by have := h1 p hp; grind, hmin.1, hmin.2⟩
        constructor
        · simp
        · intro v hv; simp only [Option.some.injEq] at hv; subst hv
          simp only [toList, List.mem_append]; exact Or.inr (ihr.found _ rfl)
        · simp [optList, toList_reBalance, toList, del_append, hldel, ← hlist]
        · intro m hm; simp only [Option.some.injEq] at hm; subst hm
          exact ordered_reBalance _ _ hord
        · simp
        · intro _ m hm k' hk'
          simp only [Option.some.injEq] at hm; subst hm
          simp only [toList_reBalance, toList_mk]
          obtain ⟨b1, q, hq, rfl⟩ := hk'
          simp only [toList, List.mem_append] at b1 hq
          refine ⟨?_, ?_⟩
          · intro p hp
            rcases List.mem_append.1 hp with hp | hp
            · exact b1 p (Or.inl hp)
            · rw [hlist, mem_del] at hp; exact b1 p (Or.inr hp.1)
          · rcases hq with hq | hq
            · exact ⟨q, by simp [hq], rfl⟩
            · obtain ⟨z, hz⟩ := List.exists_mem_of_ne_nil _ (toList_ne_nil l)
              have := h1 z hz; have := b1 z (Or.inl hz); have := h2 q hq; grind

theorem removeRec_balanced (key version) (n : Node) (he : n.Exact) (hb : n.Balanced) :
    (∀ m, (n.removeRec key version).2.1 = some m → m.Exact ∧ m.Balanced ∧
      m.depth ≤ n.depth ∧ n.depth ≤ m.depth + 1) ∧
    ((n.removeRec key version).2.1 = none → n.depth = 0) := by
  induction n with
  | leaf k v ver =>
    unfold removeRec
    split <;> simp_all [Exact, Balanced, depth]
  | branch h s ver k l r ihl ihr =>
    obtain ⟨hl, hr, e1, e2⟩ := id he
    obtain ⟨bl, br, b1, b2⟩ := id hb
    have ihl := ihl hl bl
    have ihr := ihr hr br
    unfold removeRec
    split
    · split
      · refine ⟨?_, by simp⟩
        intro m hm; simp only [Option.some.injEq] at hm; subst hm
        exact ⟨he, hb, by omega, by omega⟩
      · rename_i heq
        refine ⟨?_, by simp⟩
        intro m hm; simp only [Option.some.injEq] at hm; subst hm
        have := ihl.2 (by simp [heq])
        refine ⟨hr, br, ?_, ?_⟩ <;> simp only [depth] <;> omega
      · rename_i v l' nk heq
        refine ⟨?_, by simp⟩
        intro m hm; simp only [Option.some.injEq] at hm; subst hm
        have h4 := ihl.1 l' (by simp [heq])
        have h5 := reBalance_spec version version k l' r h4.1 hr h4.2.1 br (by omega) (by omega)
        refine ⟨h5.1, h5.2.1, ?_, ?_⟩ <;> have := h5.2.2.2.2 <;> simp only [depth] <;> omega
    · split
      · refine ⟨?_, by simp⟩
        intro m hm; simp only [Option.some.injEq] at hm; subst hm
        exact ⟨he, hb, by omega, by omega⟩
      · rename_i heq
        refine ⟨?_, by simp⟩
        intro m hm; simp only [Option.some.injEq] at hm; subst hm
        have := ihr.2 (by simp [heq])
        refine ⟨hl, bl, ?_, ?_⟩ <;> simp only [depth] <;> omega
      · rename_i v r' nk heq
        refine ⟨?_, by simp⟩
        intro m hm; simp only [Option.some.injEq] at hm; subst hm
        have h4 := ihr.1 r' (by simp [heq])
        have h5 := reBalance_spec version version (nk.getD k) l r' hl h4.1 bl h4.2.1 (by omega) (by omega)
        refine ⟨h5.1, h5.2.1, ?_, ?_⟩ <;> have := h5.2.2.2.2 <;> simp only [depth] <;> omega

/-! ### Lookup -/

theorem sorted_toList (n : Node) (h : n.Ordered) : SortedKeys n.toList := by
  induction n with
  | leaf => simp [toList, SortedKeys]
  | branch hh s ver k l r ihl ihr =>
    obtain ⟨hl, hr, h1, h2, h3⟩ := h
    simp only [toList, SortedKeys, List.pairwise_append]
    exact ⟨ihl hl, ihr hr, fun a ha b hb => by have := h1 a ha; have := h2 b hb; grind⟩

theorem rank_append (key) (xs ys : List (Key × Val)) : rank key (xs ++ ys) = rank key xs + rank key ys := by
  simp [rank]

theorem rank_all {key} {xs : List (Key × Val)} (h : ∀ p ∈ xs, p.1 < key) : rank key xs = xs.length := by
  unfold rank
  rw [List.filter_eq_self.2]
  intro a ha; simpa using h a ha

theorem rank_none {key} {xs : List (Key × Val)} (h : ∀ p ∈ xs, key ≤ p.1) : rank key xs = 0 := by
  unfold rank
  rw [List.length_eq_zero_iff, List.filter_eq_nil_iff]
  intro a ha; simpa using h a ha

/-- `get` returns the stored value and the rank. -/
theorem get_spec (key) (n : Node) (ho : n.Ordered) (he : n.Exact) :
    (n.get key).2 = rank key n.toList ∧ ∀ v, (n.get key).1 = some v ↔ (key, v) ∈ n.toList := by
  induction n with
  | leaf k v ver =>
    simp only [get, toList]
    repeat' split
    · rename_i h; refine ⟨(rank_all (xs := [(k, v)]) (by simpa using h)).symm, ?_⟩; simp; grind
    · rename_i h; refine ⟨(rank_none (by simp; grind)).symm, ?_⟩; simp; grind
    · rename_i h; refine ⟨(rank_none (by simp; grind)).symm, ?_⟩; simp; grind
  | branch hh s ver k l r ihl ihr =>
    obtain ⟨hl, hr, h1, h2, h3⟩ := ho
    obtain ⟨el, er, _, e2⟩ := he
    simp only [get, toList, rank_append]
    split
    · have : rank key r.toList = 0 := rank_none (by grind)
      refine ⟨by rw [this, (ihl hl el).1]; rfl, fun v => ?_⟩
      rw [(ihl hl el).2]; grind
    · have h4 : rank key l.toList = l.toList.length := rank_all (by grind)
      have h5 := size_eq_length r er
      refine ⟨?_, fun v => ?_⟩
      · rw [h4, (ihr hr er).1]; dsimp only; omega
      · rw [(ihr hr er).2]; grind

theorem getByIndex_spec (i) (n : Node) (he : n.Exact) : n.getByIndex i = n.toList[i]? := by
  induction n generalizing i with
  | leaf k v ver => cases i <;> simp [getByIndex, toList]
  | branch hh s ver k l r ihl ihr =>
    obtain ⟨el, er, _, e2⟩ := he
    simp only [getByIndex, toList, size_eq_length l el]
    split
    · rw [ihl _ el, List.getElem?_append_left (by assumption)]
    · rw [ihr _ er, List.getElem?_append_right (by omega)]

end Node

/-! ### Whole trees -/

theorem Tree.WF_empty (v) : (Tree.empty v).WF := by intro n h; simp [Tree.empty] at h

theorem mem_ins_sorted {k v} {xs : List (Key × Val)} (hs : SortedKeys xs) {p} :
    p ∈ ins k v xs ↔ p = (k, v) ∨ (p ∈ xs ∧ p.1 ≠ k) := by
  induction xs with
  | nil => simp [ins]
  | cons q xs ih =>
    simp only [SortedKeys, List.pairwise_cons] at hs
    have ih := ih hs.2
    unfold ins
    repeat' split
    · constructor
      · intro h; simp only [List.mem_cons] at h
        rcases h with h | rfl | h
        · exact .inl h
        · right; simp; grind
        · have := hs.1 p h; right; simp [h]; grind
      · intro h; simp only [List.mem_cons] at *; grind
    · simp only [List.mem_cons, ih]; grind
    · simp only [List.mem_cons]
      constructor
      · rintro (h | h)
        · exact .inl h
        · have := hs.1 p h; right; grind
      · grind

theorem Tree.WF_set (t : Tree) (k v) (h : t.WF) : (t.set k v).WF := by
  intro n hn
  unfold Tree.set at hn
  cases hr : t.root with
  | none => 
    simp only [hr, Option.some.injEq] at hn; subst hn
    exact ⟨trivial, trivial, trivial⟩
  | some m =>
    simp only [hr, Option.some.injEq] at hn; subst hn
    have hm := h m hr
    have hb := Node.setRec_balanced k v (t.version + 1) m hm.exact hm.balanced
    exact ⟨Node.ordered_setRec _ _ _ _ hm.ordered, hb.1, hb.2.1⟩

theorem Tree.WF_remove (t : Tree) (k) (h : t.WF) : (t.remove k).WF := by
  intro n hn
  unfold Tree.remove at hn
  cases hr : t.root with
  | none => simp [hr] at hn
  | some m =>
    simp only [hr] at hn
    have hm := h m hr
    have hb := (Node.removeRec_balanced k (t.version + 1) m hm.exact hm.balanced).1 n hn
    exact ⟨(Node.removeRec_spec k (t.version + 1) m hm.ordered).ordered n hn, hb.1, hb.2.1⟩

theorem Tree.root_saveVersion (t : Tree) : (t.saveVersion.getD t).root = t.root := by
  unfold Tree.saveVersion; split <;> rfl

theorem Tree.WF_step (t : Tree) (op) (h : t.WF) : (t.step op).WF := by
  cases op with
  | set k v => exact t.WF_set k v h
  | remove k => exact t.WF_remove k h
  | save => intro n hn; rw [Tree.step, Tree.root_saveVersion] at hn; exact h n hn

theorem Tree.WF_run (t : Tree) (ops) (h : t.WF) : (t.run ops).WF := by
  induction ops generalizing t with
  | nil => exact h
  | cons op ops ih => exact ih _ (t.WF_step op h)

theorem Tree.sorted (t : Tree) (h : t.WF) : SortedKeys t.toList := by
  unfold Tree.toList
  split
  · simp [SortedKeys]
  · exact Node.sorted_toList _ (h _ ‹_›).ordered

theorem Tree.toList_set (t : Tree) (k v) (h : t.WF) : (t.set k v).toList = ins k v t.toList := by
  unfold Tree.set Tree.toList
  cases hr : t.root with
  | none => rfl
  | some m => exact Node.toList_setRec _ _ _ _ (h m hr).ordered

theorem Tree.toList_remove (t : Tree) (k) (h : t.WF) : (t.remove k).toList = del k t.toList := by
  unfold Tree.remove Tree.toList
  cases hr : t.root with
  | none => rfl
  | some m =>
    have := (Node.removeRec_spec k (t.version + 1) m (h m hr).ordered).list
    simp only
    rw [← this]; unfold optList; cases (m.removeRec k (t.version + 1)).2.1 <;> rfl

theorem Tree.getWithIndex_spec (t : Tree) (k) (h : t.WF) :
    (t.getWithIndex k).1 = rank k t.toList ∧
    ∀ v, (t.getWithIndex k).2 = some v ↔ (k, v) ∈ t.toList := by
  unfold Tree.getWithIndex Tree.toList
  cases hr : t.root with
  | none => simp [rank]
  | some m => exact Node.get_spec k m (h m hr).ordered (h m hr).exact

theorem Tree.get_some (t : Tree) (k v) (h : t.WF) : t.get k = some v ↔ (k, v) ∈ t.toList :=
  (t.getWithIndex_spec k h).2 v

theorem Tree.get_none (t : Tree) (k) (h : t.WF) : t.get k = none ↔ ∀ v, (k, v) ∉ t.toList := by
  rw [Option.eq_none_iff_forall_ne_some]
  exact forall_congr' fun v => not_congr (t.get_some k v h)

theorem Tree.get_step (t : Tree) (op) (k) (h : t.WF) :
    (t.step op).get k = Content.apply t.get op k := by
  have hs := t.sorted h
  cases op with
  | set k' v' =>
    simp only [Tree.step, Content.apply]
    split
    · subst_vars
      rw [Tree.get_some _ _ _ (t.WF_set _ _ h), t.toList_set _ _ h]; exact ins_self_mem
    · rename_i hne
      apply Option.ext; intro v
      rw [Tree.get_some _ _ _ (t.WF_set _ _ h), t.toList_set _ _ h, Tree.get_some _ _ _ h, mem_ins_sorted hs]
      grind
  | remove k' =>
    simp only [Tree.step, Content.apply]
    apply Option.ext; intro v
    rw [Tree.get_some _ _ _ (t.WF_remove _ h), t.toList_remove _ h, mem_del]
    split
    · grind
    · rw [Tree.get_some _ _ _ h]; grind
  | save =>
    simp only [Tree.step, Content.apply, Tree.get, Tree.getWithIndex, Tree.root_saveVersion]

end MemIAVL
