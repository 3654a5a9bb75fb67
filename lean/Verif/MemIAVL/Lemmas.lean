import Verif.MemIAVL.Spec
/-! Helper lemmas for the memiavl tree. -/
set_option linter.unusedSimpArgs false
namespace MemIAVL

/-- Sorted-list insertion (proof device). -/
def ins (k : Key) (v : Val) : List (Key × Val) → List (Key × Val)
  | [] => [(k, v)]
  | p :: xs => if k < p.1 then (k, v) :: p :: xs else if p.1 < k then p :: ins k v xs else (k, v) :: xs

/-- Deletion of a key from a list (proof device). -/
def del (k : Key) (l : List (Key × Val)) : List (Key × Val) := l.filter (fun p => p.1 ≠ k)

theorem ins_append_left {k v} {xs ys : List (Key × Val)} (h : ∀ p ∈ xs, p.1 < k) :
    ins k v (xs ++ ys) = xs ++ ins k v ys := by
  induction xs with
  | nil => rfl
  | cons p xs ih => grind [ins]

theorem ins_append_right {k v} {xs ys : List (Key × Val)} (h : ∀ p ∈ ys, k < p.1) (hne : ys ≠ []) :
    ins k v (xs ++ ys) = ins k v xs ++ ys := by
  induction xs with
  | nil => cases ys <;> grind [ins]
  | cons p xs ih => grind [ins]

theorem mem_ins {k v} {xs : List (Key × Val)} {p} (h : p ∈ ins k v xs) : p = (k, v) ∨ p ∈ xs := by
  induction xs with
  | nil => grind [ins]
  | cons q xs ih => grind [ins]

theorem ins_self_mem {k v} {xs : List (Key × Val)} : (k, v) ∈ ins k v xs := by
  induction xs with
  | nil => grind [ins]
  | cons q xs ih => grind [ins]

theorem mem_ins_of_mem {k v} {xs : List (Key × Val)} {p} (h : p ∈ xs) :
    ∃ q ∈ ins k v xs, q.1 = p.1 := by
  induction xs with
  | nil => grind [ins]
  | cons q xs ih =>
    unfold ins
    split
    · exact ⟨p, by grind, rfl⟩
    · split
      · grind
      · rcases List.mem_cons.1 h with rfl | h
        · exact ⟨(k, v), by grind, by grind⟩
        · exact ⟨p, by grind, rfl⟩

namespace Node

theorem toList_ne_nil (n : Node) : n.toList ≠ [] := by
  induction n <;> simp_all [toList]

@[simp] theorem toList_mk (v k l r) : (mk v k l r).toList = l.toList ++ r.toList := rfl
@[simp] theorem toList_setVersion (v) (n : Node) : (n.setVersion v).toList = n.toList := by
  cases n <;> rfl

theorem toList_rotateRight (v) (n : Node) : (rotateRight v n).toList = n.toList := by
  unfold rotateRight; split <;> simp [toList]

theorem toList_rotateLeft (v) (n : Node) : (rotateLeft v n).toList = n.toList := by
  unfold rotateLeft; split <;> simp [toList]

theorem toList_reBalance (v) (n : Node) : (reBalance v n).toList = n.toList := by
  unfold reBalance
  split
  · rfl
  · repeat' split
    all_goals simp [toList_rotateRight, toList_rotateLeft, toList]

theorem ordered_setVersion (v) (n : Node) (h : n.Ordered) : (n.setVersion v).Ordered := by
  cases n <;> exact h

theorem ordered_rotateRight (v) (n : Node) (h : n.Ordered) : (rotateRight v n).Ordered := by
  unfold rotateRight
  split
  · simp only [Ordered, mk, toList, List.mem_append] at h ⊢
    grind
  · exact h

theorem ordered_rotateLeft (v) (n : Node) (h : n.Ordered) : (rotateLeft v n).Ordered := by
  unfold rotateLeft
  split
  · rename_i rl rr
    obtain ⟨q, hq⟩ := List.exists_mem_of_ne_nil _ (toList_ne_nil rl)
    simp only [Ordered, mk, toList, List.mem_append] at h ⊢
    grind
  · exact h

theorem ordered_reBalance (v) (n : Node) (h : n.Ordered) : (reBalance v n).Ordered := by
  unfold reBalance
  split
  · trivial
  · repeat' split
    · exact ordered_rotateRight _ _ h
    · apply ordered_rotateRight
      simp only [Ordered] at h ⊢
      refine ⟨ordered_rotateLeft _ _ (ordered_setVersion _ _ h.1), ?_⟩
      simp only [toList_rotateLeft, toList_setVersion]
      exact h.2
    · exact ordered_rotateLeft _ _ h
    · apply ordered_rotateLeft
      simp only [Ordered] at h ⊢
      refine ⟨h.1, ordered_rotateRight _ _ (ordered_setVersion _ _ h.2.1), ?_⟩
      simp only [toList_rotateRight, toList_setVersion]
      exact h.2.2
    · exact h

/-- `setRec` inserts into the sorted list of pairs. -/
theorem toList_setRec (key value version) (n : Node) (h : n.Ordered) :
    (n.setRec key value version).1.toList = ins key value n.toList := by
  induction n with
  | leaf k v ver => grind [setRec, toList, ins]
  | branch hh s ver k l r ihl ihr =>
    obtain ⟨hl, hr, h1, h2, h3⟩ := h
    unfold setRec
    split
    · have : ins key value (l.toList ++ r.toList) = ins key value l.toList ++ r.toList :=
        ins_append_right (by grind) (toList_ne_nil r)
      cases hres : (setRec key value version l).2 <;> grind [toList, toList_reBalance, toList_mk]
    · have : ins key value (l.toList ++ r.toList) = l.toList ++ ins key value r.toList :=
        ins_append_left (by grind)
      cases hres : (setRec key value version r).2 <;> grind [toList, toList_reBalance, toList_mk]

theorem ordered_setRec (key value version) (n : Node) (h : n.Ordered) :
    (n.setRec key value version).1.Ordered := by
  induction n with
  | leaf k v ver => 
    unfold setRec
    repeat' split
    all_goals simp_all [Ordered, toList]
  | branch hh s ver k l r ihl ihr =>
    obtain ⟨hl, hr, h1, h2, h3⟩ := h
    unfold setRec
    have tl := toList_setRec key value version l hl
    have tr := toList_setRec key value version r hr
    split
    · have key1 : ∀ p ∈ (setRec key value version l).1.toList, p.1 < k := by
        rw [tl]; intro p hp; rcases mem_ins hp with h | h <;> grind
      cases hres : (setRec key value version l).2
      · simp only [hres, Bool.false_eq_true, ↓reduceIte]
        apply ordered_reBalance
        exact ⟨ihl hl, hr, key1, h2, h3⟩
      · simp only [hres, Bool.false_eq_true, ↓reduceIte]
        exact ⟨ihl hl, hr, key1, h2, h3⟩
    · have key1 : ∀ p ∈ (setRec key value version r).1.toList, k ≤ p.1 := by
        rw [tr]; intro p hp; rcases mem_ins hp with h | h <;> grind
      have key2 : ∃ p ∈ (setRec key value version r).1.toList, p.1 = k := by
        obtain ⟨p, hp, he⟩ := h3
        obtain ⟨q, hq, he2⟩ := mem_ins_of_mem (k := key) (v := value) hp
        exact ⟨q, by rw [tr]; exact hq, by grind⟩
      cases hres : (setRec key value version r).2
      · simp only [hres, Bool.false_eq_true, ↓reduceIte]
        apply ordered_reBalance
        exact ⟨hl, ihr hr, h1, key1, key2⟩
      · simp only [hres, Bool.false_eq_true, ↓reduceIte]
        exact ⟨hl, ihr hr, h1, key1, key2⟩

/-- The flag of `setRec` says whether the key was there. -/
theorem setRec_updated (key value version) (n : Node) (h : n.Ordered) :
    (n.setRec key value version).2 = true ↔ ∃ p ∈ n.toList, p.1 = key := by
  induction n with
  | leaf k v ver =>
    simp only [setRec, toList, List.mem_singleton, exists_eq_left]
    repeat' split
    all_goals grind
  | branch hh s ver k l r ihl ihr =>
    obtain ⟨hl, hr, h1, h2, h3⟩ := h
    unfold setRec
    simp only [toList, List.mem_append]
    split
    · cases hres : (setRec key value version l).2 <;> grind
    · cases hres : (setRec key value version r).2 <;> grind

/-! ### Heights and sizes -/

/-- Balanced up to the root, children may differ by two. -/
theorem height_eq_depth (n : Node) (h : n.Exact) : n.height = n.depth := by
  cases n <;> simp_all [Exact, height, depth]

theorem size_eq_length (n : Node) (h : n.Exact) : n.size = n.toList.length := by
  cases n <;> simp_all [Exact, size, toList]

theorem exact_mk (v k l r) (hl : l.Exact) (hr : r.Exact) : (mk v k l r).Exact := by
  simp only [mk, Exact, height_eq_depth _ hl, height_eq_depth _ hr, size_eq_length _ hl, size_eq_length _ hr]
  simp [hl, hr]

@[simp] theorem depth_mk (v k l r) : (mk v k l r).depth = max l.depth r.depth + 1 := rfl

theorem balanced_mk (v k l r) (hl : l.Balanced) (hr : r.Balanced) (h1 : l.depth ≤ r.depth + 1)
    (h2 : r.depth ≤ l.depth + 1) : (mk v k l r).Balanced := ⟨hl, hr, h1, h2⟩

theorem rotateRight_mk (v h s ver k v' lk ll lr r) :
    rotateRight v (branch h s ver k (mk v' lk ll lr) r) = mk v lk ll (mk ver k lr r) := rfl
theorem rotateLeft_mk (v h s ver k v' rk rl rr l) :
    rotateLeft v (branch h s ver k l (mk v' rk rl rr)) = mk v rk (mk ver k l rl) rr := rfl

/-- `reBalance` repairs an imbalance of at most two. -/
theorem reBalance_spec (v v' k l r) (hl : l.Exact) (hr : r.Exact) (bl : l.Balanced) (br : r.Balanced)
    (h1 : l.depth ≤ r.depth + 2) (h2 : r.depth ≤ l.depth + 2) :
    (reBalance v (mk v' k l r)).Exact ∧ (reBalance v (mk v' k l r)).Balanced ∧
    max l.depth r.depth ≤ (reBalance v (mk v' k l r)).depth ∧
    (reBalance v (mk v' k l r)).depth ≤ max l.depth r.depth + 1 ∧
    (l.depth ≤ r.depth + 1 → r.depth ≤ l.depth + 1 →
      (reBalance v (mk v' k l r)).depth = max l.depth r.depth + 1) := by
  have el := height_eq_depth l hl
  have er := height_eq_depth r hr
  unfold reBalance mk
  simp only
  rw [calcBalance]
  split
  · -- left heavy
    have hgt : l.depth = r.depth + 2 := by omega
    cases l with
    | leaf => simp [depth] at hgt
    | branch lh ls lv lk ll lr =>
      have ell := height_eq_depth ll hl.1
      have elr := height_eq_depth lr hl.2.1
      by_cases hb : (branch lh ls lv lk ll lr).calcBalance ≥ 0
      · simp only [hb, ↓reduceIte, rotateRight]
        simp only [calcBalance] at hb
        simp only [depth, Balanced] at *
        refine ⟨exact_mk _ _ _ _ hl.1 (exact_mk _ _ _ _ hl.2.1 hr), balanced_mk _ _ _ _ bl.1 (balanced_mk _ _ _ _ bl.2.1 br ?_ ?_) ?_ ?_, ?_⟩ <;> (try simp) <;> omega
      · simp only [hb, ↓reduceIte]
        simp only [calcBalance] at hb
        cases lr with
        | leaf => simp only [depth] at *; omega
        | branch lrh lrs lrv lrk lrl lrr =>
          simp only [setVersion, rotateLeft, rotateRight_mk]
          simp only [depth, Balanced] at *
          refine ⟨exact_mk _ _ _ _ (exact_mk _ _ _ _ hl.1 hl.2.1.1) (exact_mk _ _ _ _ hl.2.1.2.1 hr),
            balanced_mk _ _ _ _ (balanced_mk _ _ _ _ bl.1 bl.2.1.1 ?_ ?_) (balanced_mk _ _ _ _ bl.2.1.2.1 br ?_ ?_) ?_ ?_, ?_⟩ <;> (try simp) <;> omega
  · split
    · have hgt : r.depth = l.depth + 2 := by omega
      cases r with
      | leaf => simp [depth] at hgt
      | branch rh rs rv rk rl rr =>
        have erl := height_eq_depth rl hr.1
        have err := height_eq_depth rr hr.2.1
        by_cases hb : (branch rh rs rv rk rl rr).calcBalance ≤ 0
        · simp only [hb, ↓reduceIte, rotateLeft]
          simp only [calcBalance] at hb
          simp only [depth, Balanced] at *
          refine ⟨exact_mk _ _ _ _ (exact_mk _ _ _ _ hl hr.1) hr.2.1, balanced_mk _ _ _ _ (balanced_mk _ _ _ _ bl br.1 ?_ ?_) br.2.1 ?_ ?_, ?_⟩ <;> (try simp) <;> omega
        · simp only [hb, ↓reduceIte]
          simp only [calcBalance] at hb
          cases rl with
          | leaf => simp only [depth] at *; omega
          | branch rlh rls rlv rlk rll rlr =>
            simp only [setVersion, rotateRight, rotateLeft_mk]
            simp only [depth, Balanced] at *
            refine ⟨exact_mk _ _ _ _ (exact_mk _ _ _ _ hl hr.1.1) (exact_mk _ _ _ _ hr.1.2.1 hr.2.1),
              balanced_mk _ _ _ _ (balanced_mk _ _ _ _ bl br.1.1 ?_ ?_) (balanced_mk _ _ _ _ br.1.2.1 br.2.1 ?_ ?_) ?_ ?_, ?_⟩ <;> (try simp) <;> omega
    · refine ⟨exact_mk v' k _ _ hl hr, balanced_mk v' k _ _ bl br ?_ ?_, ?_⟩
      · omega
      · omega
      · have e1 : (branch (max l.height r.height + 1) (l.size + r.size) v' k l r).depth = max l.depth r.depth + 1 := rfl
        rw [e1]; omega

theorem setRec_balanced (key value version) (n : Node) (he : n.Exact) (hb : n.Balanced) :
    (n.setRec key value version).1.Exact ∧ (n.setRec key value version).1.Balanced ∧
    n.depth ≤ (n.setRec key value version).1.depth ∧
    (n.setRec key value version).1.depth ≤ n.depth + 1 ∧
    ((n.setRec key value version).2 = true →
      (n.setRec key value version).1.depth = n.depth ∧
      (n.setRec key value version).1.toList.length = n.toList.length) := by
  induction n with
  | leaf k v ver =>
    unfold setRec
    repeat' split
    all_goals simp [Exact, Balanced, depth, toList]
  | branch h s ver k l r ihl ihr =>
    unfold setRec
    obtain ⟨hl, hr, e1, e2⟩ := he
    obtain ⟨bl, br, b1, b2⟩ := hb
    have ihl := ihl hl bl
    have ihr := ihr hr br
    split
    · cases hres : (setRec key value version l).2
      · simp only [hres, Bool.false_eq_true, ↓reduceIte]
        have := reBalance_spec version version k (setRec key value version l).1 r ihl.1 hr ihl.2.1 br
          (by omega) (by omega)
        simp only [depth] at *
        refine ⟨this.1, this.2.1, ?_, ?_, by simp⟩
        · have := this.2.2.2.2; omega
        · have := this.2.2.2.2; omega
      · have h3 := ihl.2.2.2.2 hres
        simp only [hres, Bool.false_eq_true, ↓reduceIte]
        refine ⟨⟨ihl.1, hr, ?_, ?_⟩, ⟨ihl.2.1, br, ?_, ?_⟩, ?_, ?_, fun _ => ⟨?_, ?_⟩⟩ <;>
          (try simp only [depth, toList, List.length_append]) <;> omega
    · cases hres : (setRec key value version r).2
      · simp only [hres, Bool.false_eq_true, ↓reduceIte]
        have := reBalance_spec version version k l (setRec key value version r).1 hl ihr.1 bl ihr.2.1
          (by omega) (by omega)
        simp only [depth] at *
        refine ⟨this.1, this.2.1, ?_, ?_, by simp⟩
        · have := this.2.2.2.2; omega
        · have := this.2.2.2.2; omega
      · have h3 := ihr.2.2.2.2 hres
        simp only [hres, Bool.false_eq_true, ↓reduceIte]
        refine ⟨⟨hl, ihr.1, ?_, ?_⟩, ⟨bl, ihr.2.1, ?_, ?_⟩, ?_, ?_, fun _ => ⟨?_, ?_⟩⟩ <;>
          (try simp only [depth, toList, List.length_append]) <;> omega

end Node
end MemIAVL
