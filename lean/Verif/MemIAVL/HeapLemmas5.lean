import Verif.MemIAVL.HeapLemmas4
/-! Helper lemmas for the heap model: the invariant of several trees sharing one memory. -/
set_option linter.unusedSimpArgs false
set_option linter.unusedVariables false
namespace MemIAVL
open Varint

variable {H : Bytes → Bytes}

/-- The `i`-th tree shows the value tree `t`; `R` and `F` are its cells and its writable cells (proof device). -/
structure TreeInv (H : Bytes → Bytes) (h : Heap) (ht : HTree) (t : Tree) (R F : List Nat) : Prop where
  version : ht.version = t.version
  cow : ht.cow ≤ ht.version
  wf : t.WF
  nodup : F.Nodup
  root : (ht.root = none ∧ t.root = none ∧ R = [] ∧ F = []) ∨
    ∃ r n, ht.root = some r ∧ t.root = some n ∧ Rep H ht.cow h r n R F ∧ n.VerLe (t.version + 1) ∧
      (ht.dirty = false → n.VerLe t.version)

theorem TreeInv.subset {h ht t R F} (hi : TreeInv H h ht t R F) {x : Nat} (hx : x ∈ F) : x ∈ R := by
  rcases hi.root with ⟨_, _, rfl, rfl⟩ | ⟨r, n, _, _, hr, _⟩
  · exact hx
  · exact hr.subset hx

theorem TreeInv.lt {h ht t R F} (hi : TreeInv H h ht t R F) {x : Nat} (hx : x ∈ R) : x < h.length := by
  rcases hi.root with ⟨_, _, rfl, rfl⟩ | ⟨r, n, _, _, hr, _⟩
  · simp at hx
  · exact hr.lt hx

theorem TreeInv.eff {h ht t R F h' F0} (hi : TreeInv H h ht t R F) (e : Eff h F0 h') (hd : ∀ x ∈ F0, x ∉ R) :
    TreeInv H h' ht t R F := by
  refine ⟨hi.version, hi.cow, hi.wf, hi.nodup, ?_⟩
  rcases hi.root with h0 | ⟨r, n, h1, h2, h3, h4⟩
  · exact .inl h0
  · exact .inr ⟨r, n, h1, h2, h3.eff e hd, h4⟩

theorem TreeInv.keeps {h ht t R F h'} (hi : TreeInv H h ht t R F) (e : Keeps H h h') : TreeInv H h' ht t R F := by
  refine ⟨hi.version, hi.cow, hi.wf, hi.nodup, ?_⟩
  rcases hi.root with h0 | ⟨r, n, h1, h2, h3, h4⟩
  · exact .inl h0
  · exact .inr ⟨r, n, h1, h2, e _ _ _ _ _ h3, h4⟩

/-- All trees show their value; no tree may write a cell another one reads. -/
structure SysInv (H : Bytes → Bytes) (s : HSys) (ts : List Tree) : Prop where
  len : s.trees.length = ts.length
  ex : ∃ R F : Nat → List Nat, (∀ i ht t, s.trees[i]? = some ht → ts[i]? = some t → TreeInv H s.heap ht t (R i) (F i)) ∧
    ∀ i j, i < ts.length → j < ts.length → i ≠ j → ∀ x ∈ F i, x ∉ R j

/-- Replacing one tree after an operation that wrote only its own and new cells. -/
theorem SysInv.replace {s ts} (hi : SysInv H s ts) {i : Nat} {ht t} (h1 : s.trees[i]? = some ht) (h2 : ts[i]? = some t)
    {R F : Nat → List Nat} (hR : ∀ i ht t, s.trees[i]? = some ht → ts[i]? = some t → TreeInv H s.heap ht t (R i) (F i))
    (hd : ∀ i j, i < ts.length → j < ts.length → i ≠ j → ∀ x ∈ F i, x ∉ R j)
    {h' ht' t' R' F'} (e : Eff s.heap (F i) h') (hi' : TreeInv H h' ht' t' R' F')
    (hF' : ∀ x ∈ F', x ∈ F i ∨ s.heap.length ≤ x) (hR' : ∀ x ∈ R', x ∈ R i ∨ s.heap.length ≤ x) :
    SysInv H { heap := h', trees := s.trees.set i ht' } (ts.set i t') := by
  have il : i < ts.length := (List.getElem?_eq_some_iff.1 h2).1
  have il' : i < s.trees.length := by have := hi.len; omega
  refine ⟨by simp [hi.len], fun j => if j = i then R' else R j, fun j => if j = i then F' else F j, ?_, ?_⟩
  · intro j hj tj e1 e2
    by_cases hji : j = i
    · subst hji
      simp only [List.getElem?_set_self il', Option.some.injEq] at e1
      simp only [List.getElem?_set_self il, Option.some.injEq] at e2
      subst e1 e2
      simpa using hi'
    · simp only [List.getElem?_set_ne (Ne.symm hji)] at e1 e2
      have jl : j < ts.length := (List.getElem?_eq_some_iff.1 e2).1
      simp only [hji, ↓reduceIte]
      exact (hR j hj tj e1 e2).eff e (hd i j il jl (Ne.symm hji))
  · intro j k jl kl hjk x hx
    simp only [List.length_set] at jl kl
    by_cases hji : j = i
    · subst hji
      have hkj : k ≠ j := Ne.symm hjk
      simp only [↓reduceIte] at hx
      simp only [hkj, ↓reduceIte]
      rcases hF' x hx with h | h
      · exact hd j k jl kl hjk x h
      · intro hxk
        have e1 := List.getElem?_eq_getElem (l := s.trees) (i := k) (by have := hi.len; omega)
        have e2 := List.getElem?_eq_getElem (l := ts) (i := k) kl
        have := (hR k _ _ e1 e2).lt hxk; omega
    · simp only [hji, ↓reduceIte] at hx
      by_cases hki : k = i
      · subst hki
        simp only [↓reduceIte]
        intro hxk
        rcases hR' x hxk with h | h
        · exact hd j k jl kl hjk x hx h
        · have e1 := List.getElem?_eq_getElem (l := s.trees) (i := j) (by have := hi.len; omega)
          have e2 := List.getElem?_eq_getElem (l := ts) (i := j) jl
          have hij := hR j _ _ e1 e2
          have := hij.lt (hij.subset hx); omega
      · simp only [hki, ↓reduceIte]
        exact hd j k jl kl hjk x hx

theorem SysInv.get {s ts} (hi : SysInv H s ts) {i : Nat} {t} (h2 : ts[i]? = some t) : ∃ ht, s.trees[i]? = some ht := by
  have il : i < ts.length := (List.getElem?_eq_some_iff.1 h2).1
  exact ⟨_, List.getElem?_eq_getElem (by have := hi.len; omega)⟩

theorem fuelOf_eq {c h ref n R F} (hr : Rep H c h ref n R F) : HSys.fuelOf h ref = n.height + 1 := by
  obtain ⟨cell, e, h1, _⟩ := hr.view
  simp [HSys.fuelOf, e, h1]

theorem SysInv.set {s ts} (hi : SysInv H s ts) {i : Nat} {t} (h2 : ts[i]? = some t) (key : Key) (value : Val) :
    ∃ s', s.set i key value = some s' ∧ SysInv H s' (ts.set i (t.set key value)) := by
  obtain ⟨ht, h1⟩ := hi.get h2
  obtain ⟨R, F, hR, hd⟩ := hi.ex
  have hti := hR i ht t h1 h2
  have hv := hti.version
  have hc := hti.cow
  rcases hti.root with ⟨r1, r2, r3, r4⟩ | ⟨r, n, r1, r2, r3, r4, r5⟩
  · refine ⟨_, by simp only [HSys.set, h1, r1, Option.bind_eq_bind, Option.bind_some, Option.pure_def]; rfl, ?_⟩
    have rep := Rep.leaf (H := H) (c := ht.cow) (h := s.heap ++ [Heap.leafCell key value (ht.version + 1)]) s.heap.length
      key value (ht.version + 1) none (by simp [Heap.leafCell]) (by simp)
    refine hi.replace h1 h2 hR hd (R' := [s.heap.length]) (F' := own ht.cow (ht.version + 1) s.heap.length) (Eff.append _ _ _)
      ⟨hti.version, hti.cow, hti.wf |> t.WF_set key value, by unfold own; split <;> simp, .inr ⟨_, _, rfl, ?_, rep, ?_, by simp⟩⟩ ?_ ?_
    · simp [Tree.set, r2, hv]
    · simp [Node.VerLe, Tree.set, hv]
    · intro x hx; right; rw [(mem_own.1 hx).1]; exact Nat.le_refl _
    · intro x hx; right; simp at hx; omega
  · have hwf := hti.wf n r2
    obtain ⟨h', a, e1, ⟨R', F', rep, nd, f1, f2⟩, ef⟩ := setRec_heap key value (ht.version + 1) (by omega) (n.height + 1)
      s.heap r n (R i) (F i) r3 hti.nodup hwf.exact (by omega)
    refine ⟨_, by simp only [HSys.set, h1, r1, Option.bind_eq_bind, Option.bind_some, Option.pure_def, fuelOf_eq r3, e1]; rfl, ?_⟩
    refine hi.replace h1 h2 hR hd ef ⟨hti.version, hti.cow, t.WF_set key value hti.wf, nd,
      .inr ⟨_, _, rfl, ?_, rep, ?_, by simp⟩⟩ f1 f2
    · simp [Tree.set, r2, hv]
    · exact Node.VerLe.setRec (by simp [Tree.set, hv]) key value r4

theorem SysInv.remove {s ts} (hi : SysInv H s ts) {i : Nat} {t} (h2 : ts[i]? = some t) (key : Key) :
    ∃ s', s.remove i key = some s' ∧ SysInv H s' (ts.set i (t.remove key)) := by
  obtain ⟨ht, h1⟩ := hi.get h2
  obtain ⟨R, F, hR, hd⟩ := hi.ex
  have hti := hR i ht t h1 h2
  have hv := hti.version
  have hc := hti.cow
  rcases hti.root with ⟨r1, r2, r3, r4⟩ | ⟨r, n, r1, r2, r3, r4, r5⟩
  · refine ⟨_, by simp only [HSys.remove, h1, r1, Option.bind_eq_bind, Option.bind_some, Option.pure_def]; rfl, ?_⟩
    exact hi.replace h1 h2 hR hd (R' := []) (F' := []) (Eff.refl _ _)
      ⟨hti.version, hti.cow, hti.wf |> t.WF_remove key, by simp, .inl ⟨rfl, by simp [Tree.remove, r2], rfl, rfl⟩⟩ (by simp) (by simp)
  · have hwf := hti.wf n r2
    obtain ⟨h', ref', e1, -, ef, q1, q2⟩ := removeRec_heap key (ht.version + 1) (by omega) (n.height + 1)
      s.heap r n (R i) (F i) r3 hti.nodup hwf.exact (by omega)
    refine ⟨_, by simp only [HSys.remove, h1, r1, Option.bind_eq_bind, Option.bind_some, Option.pure_def, fuelOf_eq r3, e1]; rfl, ?_⟩
    cases hm : (n.removeRec key (ht.version + 1)).2.1 with
    | none =>
      exact hi.replace h1 h2 hR hd (R' := []) (F' := []) ef
        ⟨hti.version, hti.cow, hti.wf |> t.WF_remove key, by simp,
          .inl ⟨q1 hm, by simp only [Tree.remove, r2, ← hv]; exact hm, rfl, rfl⟩⟩ (by simp) (by simp)
    | some m =>
      obtain ⟨rf, hrf, ⟨R', F', rep, nd, f1, f2⟩, _⟩ := q2 m hm
      refine hi.replace h1 h2 hR hd ef ⟨hti.version, hti.cow, t.WF_remove key hti.wf, nd,
        .inr ⟨rf, m, hrf, ?_, rep, ?_, by simp⟩⟩ f1 f2
      · simp only [Tree.remove, r2, ← hv]; exact hm
      · exact Node.VerLe.removeRec (by simp [Tree.remove, hv]) key r4 m hm

theorem SysInv.save {s ts} (hi : SysInv H s ts) {i : Nat} {t} (h2 : ts[i]? = some t) :
    ∃ s', s.save i = some s' ∧ SysInv H s' (ts.set i (t.saveVersion.getD t)) := by
  obtain ⟨ht, h1⟩ := hi.get h2
  obtain ⟨R, F, hR, hd⟩ := hi.ex
  have hti := hR i ht t h1 h2
  have hv := hti.version
  have hc := hti.cow
  by_cases hmax : ht.version = 2 ^ 32 - 1
  · refine ⟨s, by simp only [HSys.save, h1, Option.bind_eq_bind, Option.bind_some, Option.pure_def, hmax, ↓reduceIte], ?_⟩
    have : t.saveVersion.getD t = t := by simp only [Tree.saveVersion, ← hv, hmax, ↓reduceIte, Option.getD_none]
    rw [this]
    obtain ⟨il, e⟩ := List.getElem?_eq_some_iff.1 h2
    rw [← e, List.set_getElem_self]; exact hi
  · refine ⟨_, by simp only [HSys.save, h1, Option.bind_eq_bind, Option.bind_some, Option.pure_def, hmax, ↓reduceIte]; rfl, ?_⟩
    have : t.saveVersion.getD t = { t with version := t.version + 1 } := by
      simp only [Tree.saveVersion, ← hv, hmax, ↓reduceIte, Option.getD_some]
    rw [this]
    refine hi.replace h1 h2 hR hd (Eff.refl _ _) (R' := R i) (F' := F i)
      ⟨by simp [hv], by simp; omega, fun n hn => hti.wf n hn, hti.nodup, ?_⟩ (fun x hx => .inl hx) (fun x hx => .inl hx)
    rcases hti.root with h0 | ⟨r, n, r1, r2, r3, r4, r5⟩
    · exact .inl h0
    · exact .inr ⟨r, n, r1, r2, r3, r4.mono (by simp), fun _ => r4⟩

theorem SysInv.rootHash {s ts} (hi : SysInv H s ts) {i : Nat} {t} (h2 : ts[i]? = some t) :
    ∃ s', s.rootHash H i = some (s', t.rootHash H) ∧ SysInv H s' ts := by
  obtain ⟨ht, h1⟩ := hi.get h2
  obtain ⟨R, F, hR, hd⟩ := hi.ex
  have hti := hR i ht t h1 h2
  rcases hti.root with ⟨r1, r2, r3, r4⟩ | ⟨r, n, r1, r2, r3, r4, r5⟩
  · exact ⟨s, by simp [HSys.rootHash, h1, r1, Tree.rootHash, r2], hi⟩
  · obtain ⟨h', e, k⟩ := hash_heap (n.height + 1) s.heap r n (R i) (F i) r3 (hti.wf n r2).exact (by omega)
    refine ⟨{ s with heap := h' }, by simp [HSys.rootHash, h1, r1, Tree.rootHash, r2, fuelOf_eq r3, e], hi.len, R, F, ?_, hd⟩
    exact fun j hj tj e1 e2 => (hR j hj tj e1 e2).keeps k

theorem SysInv.copy {s ts} (hi : SysInv H s ts) {i : Nat} {t ht} (h2 : ts[i]? = some t) (h1 : s.trees[i]? = some ht)
    (hdirty : ht.dirty = false) :
    ∃ s', s.copy i = some s' ∧ SysInv H s' (ts ++ [t]) := by
  obtain ⟨R, F, hR, hd⟩ := hi.ex
  have hti := hR i ht t h1 h2
  have il : i < ts.length := (List.getElem?_eq_some_iff.1 h2).1
  have hlen := hi.len
  -- the tree after the watermark has been raised
  have key : ∃ ht', (match ht.root with | some (.ptr _) => { ht with cow := ht.version } | _ => ht) = ht' ∧
      TreeInv H s.heap ht' t (R i) [] := by
    rcases hti.root with ⟨r1, r2, r3, r4⟩ | ⟨r, n, r1, r2, r3, r4, r5⟩
    · exact ⟨ht, by simp [r1], hti.version, hti.cow, hti.wf, by simp, .inl ⟨r1, r2, r3, rfl⟩⟩
    · cases r with
      | pers m =>
        refine ⟨ht, by simp [r1], hti.version, hti.cow, hti.wf, by simp, .inr ⟨_, n, r1, r2, ?_, r4, r5⟩⟩
        generalize F i = Fi, R i = Ri at r3
        cases r3; exact .pers _
      | ptr a =>
        exact ⟨{ ht with cow := ht.version }, by simp [r1], hti.version, by simp, hti.wf, by simp,
          .inr ⟨_, n, r1, r2, r3.freeze (by rw [hti.version]; exact r5 hdirty), r4, r5⟩⟩
  obtain ⟨ht', e, hti'⟩ := key
  refine ⟨{ s with trees := s.trees.set i ht' ++ [ht'] }, ?_, by simp [hlen],
    fun j => if j = i ∨ j = ts.length then R i else R j, fun j => if j = i ∨ j = ts.length then [] else F j, ?_, ?_⟩
  · simp only [HSys.copy, HSys.copyRaw, h1, Option.bind_eq_bind, Option.bind_some, Option.pure_def]
    rw [if_neg (by simp [hdirty]), ← e]; rfl
  · intro j hj tj e1 e2
    have jl : j < ts.length + 1 := by have := (List.getElem?_eq_some_iff.1 e2).1; simpa using this
    by_cases hjl : j = ts.length
    · subst hjl
      rw [List.getElem?_append_right (by simp [hlen])] at e1
      rw [List.getElem?_append_right (by simp)] at e2
      simp [hlen] at e1 e2
      subst e1 e2
      simpa using hti'
    · rw [List.getElem?_append_left (by simp; omega)] at e1
      rw [List.getElem?_append_left (by omega)] at e2
      by_cases hji : j = i
      · subst hji
        rw [List.getElem?_set_self (by omega)] at e1
        rw [h2] at e2
        cases e1; cases e2
        simpa using hti'
      · rw [List.getElem?_set_ne (Ne.symm hji)] at e1
        simp only [hji, hjl, or_self, ↓reduceIte]
        exact hR j hj tj e1 e2
  · intro j k jl kl hjk x hx
    simp only [List.length_append, List.length_singleton] at jl kl
    by_cases hj : j = i ∨ j = ts.length
    · simp [hj] at hx
    · simp only [hj, ↓reduceIte] at hx
      simp only [not_or] at hj
      by_cases hk : k = i ∨ k = ts.length
      · simp only [hk, ↓reduceIte]; exact hd j i (by omega) il hj.1 x hx
      · simp only [hk, ↓reduceIte]
        simp only [not_or] at hk
        exact hd j k (by omega) (by omega) hjk x hx

theorem SysInv.getVal {s ts} (hi : SysInv H s ts) {i : Nat} {t} (h2 : ts[i]? = some t) (key : Key) :
    s.get i key = some ((t.getWithIndex key).2, (t.getWithIndex key).1) := by
  obtain ⟨ht, h1⟩ := hi.get h2
  obtain ⟨R, F, hR, hd⟩ := hi.ex
  have hti := hR i ht t h1 h2
  rcases hti.root with ⟨r1, r2, r3, r4⟩ | ⟨r, n, r1, r2, r3, r4, r5⟩
  · simp [HSys.get, h1, r1, Tree.getWithIndex, r2]
  · simp [HSys.get, h1, r1, Tree.getWithIndex, r2, fuelOf_eq r3, get_heap key (n.height + 1) s.heap r n (R i) (F i) r3
      (hti.wf n r2).exact (by omega)]

theorem read_heap {c : Nat} (fuel : Nat) :
    ∀ (h : Heap) (ref : Ref) (n : Node) (R F : List Nat), Rep H c h ref n R F → n.Exact → n.height < fuel →
    h.read fuel ref = some n := by
  induction fuel with
  | zero => intro h ref n R F _ _ hf; omega
  | succ fuel ih =>
    intro h ref n R F hr he hf
    cases hr with
    | pers n => rfl
    | leaf a k v ver hs h1 h2 => simp [Heap.read, h1]
    | branch a ht sz ver k val rl rr hs l r Rl Fl Rr Fr h1 h2 h3 hl hr =>
      obtain ⟨hel, her, hht, -⟩ := he
      have hd1 := Node.height_eq_depth l hel
      have hd2 := Node.height_eq_depth r her
      simp only [Node.height] at hf
      simp [Heap.read, h1, h2, ih h rl l Rl Fl hl hel (by omega), ih h rr r Rr Fr hr her (by omega)]

theorem SysInv.readTree {s ts} (hi : SysInv H s ts) {i : Nat} {t} (h2 : ts[i]? = some t) : s.readTree i = some t := by
  obtain ⟨ht, h1⟩ := hi.get h2
  obtain ⟨R, F, hR, hd⟩ := hi.ex
  have hti := hR i ht t h1 h2
  have hv := hti.version
  rcases hti.root with ⟨r1, r2, r3, r4⟩ | ⟨r, n, r1, r2, r3, r4, r5⟩
  · cases t; simp_all [HSys.readTree]
  · cases t; simp_all [HSys.readTree, fuelOf_eq r3, read_heap (n.height + 1) s.heap r n (R i) (F i) r3
      (hti.wf n r2).exact (by omega)]

/-- What each operation does to value trees that share nothing. -/
def privateStep (ts : List Tree) : HOp → List Tree
  | .set i k v => ts.modify i (·.step (.set k v))
  | .remove i k => ts.modify i (·.step (.remove k))
  | .save i => ts.modify i (·.step .save)
  | .rootHash _ => ts
  | .copy i => match ts[i]? with
    | some t => ts ++ [t]
    | none => ts

theorem modify_eq_set {α} {l : List α} {i : Nat} {x} (h : l[i]? = some x) (f : α → α) : l.modify i f = l.set i (f x) := by
  apply List.ext_getElem?
  intro j
  rw [List.getElem?_modify, List.getElem?_set]
  have il := (List.getElem?_eq_some_iff.1 h).1
  by_cases hj : i = j
  · subst hj; simp [il]; rw [(List.getElem?_eq_some_iff.1 h).2]
  · simp [hj]

/-- Which operations are allowed. -/
def HSys.allowed (s : HSys) : HOp → Prop
  | .set i _ _ | .remove i _ | .save i | .rootHash i => i < s.trees.length
  | .copy i => ∃ t, s.trees[i]? = some t ∧ t.dirty = false

theorem SysInv.step {s ts} (hi : SysInv H s ts) (op : HOp) (ha : s.allowed op) :
    ∃ s', s.step H op = some s' ∧ SysInv H s' (privateStep ts op) := by
  have gt : ∀ i, i < s.trees.length → ∃ t, ts[i]? = some t := fun i h => ⟨_, List.getElem?_eq_getElem (by have := hi.len; omega)⟩
  cases op with
  | set i k v =>
    obtain ⟨t, ht⟩ := gt i ha
    simpa [HSys.step, privateStep, modify_eq_set ht, Tree.step] using hi.set ht k v
  | remove i k =>
    obtain ⟨t, ht⟩ := gt i ha
    simpa [HSys.step, privateStep, modify_eq_set ht, Tree.step] using hi.remove ht k
  | save i =>
    obtain ⟨t, ht⟩ := gt i ha
    simpa [HSys.step, privateStep, modify_eq_set ht, Tree.step] using hi.save ht
  | rootHash i =>
    obtain ⟨t, ht⟩ := gt i ha
    obtain ⟨s', e, hi'⟩ := hi.rootHash ht
    exact ⟨s', by simp [HSys.step, e], hi'⟩
  | copy i =>
    obtain ⟨ht, h1, h2⟩ := ha
    obtain ⟨t, h3⟩ := gt i (List.getElem?_eq_some_iff.1 h1).1
    simpa [HSys.step, privateStep, h3] using hi.copy h3 h1 h2

theorem SysInv.allowed_of_step {s ts s'} (hi : SysInv H s ts) (op : HOp) (h : s.step H op = some s') : s.allowed op := by
  have lt : ∀ i, s.trees[i]? ≠ none → i < s.trees.length := fun i h => by
    simpa using h
  cases op with
  | set i k v => exact lt i fun e => by simp [HSys.step, HSys.set, e] at h
  | remove i k => exact lt i fun e => by simp [HSys.step, HSys.remove, e] at h
  | save i => exact lt i fun e => by simp [HSys.step, HSys.save, e] at h
  | rootHash i => exact lt i fun e => by simp [HSys.step, HSys.rootHash, e] at h
  | copy i =>
    cases e : s.trees[i]? with
    | none => simp [HSys.step, HSys.copy, e] at h
    | some t =>
      refine ⟨t, e, ?_⟩
      cases hd : t.dirty with
      | false => rfl
      | true => simp [HSys.step, HSys.copy, e, hd] at h

theorem SysInv.run {s ts s'} (hi : SysInv H s ts) (ops : List HOp) (h : s.run H ops = some s') :
    SysInv H s' (ops.foldl privateStep ts) := by
  induction ops generalizing s ts with
  | nil => simp only [HSys.run, Option.some.injEq] at h; subst h; exact hi
  | cons op ops ih =>
    simp only [HSys.run, Option.bind_eq_bind] at h
    cases e : s.step H op with
    | none => simp [e] at h
    | some s1 =>
      obtain ⟨s2, e2, hi2⟩ := hi.step op (hi.allowed_of_step op e)
      rw [e] at e2; cases e2
      rw [e] at h
      exact ih hi2 h

end MemIAVL
