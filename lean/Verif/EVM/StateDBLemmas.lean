import Verif.EVM.StateDBSpec
/-!
# EVM state: lemmas for the refinement proof
-/
namespace EVM

theorem upd_same {α : Type} (f : Nat → α) (a : Nat) (v : α) : upd f a v a = v := by simp [upd]
theorem upd_other {α : Type} (f : Nat → α) {a b : Nat} (v : α) (h : b ≠ a) : upd f a v b = f b := by simp [upd, h]
theorem upd_self {α : Type} {f : Nat → α} {a : Nat} {v : α} (h : f a = v) : upd f a v = f := by
  funext b; by_cases hb : b = a
  · subst hb; simp [upd, h]
  · simp [upd, hb]
theorem upd_upd {α : Type} (f : Nat → α) (a : Nat) (v w : α) : upd (upd f a v) a w = upd f a w := by
  funext b; by_cases hb : b = a <;> simp [upd, hb]

/-! ### The access list -/

namespace AccessList

structure WF (al : AccessList) : Prop where
  idx : ∀ a i, al.addresses a = some i → i = -1 ∨ (0 ≤ i ∧ ∃ m, al.slots[i.toNat]? = some m ∧ m ≠ [])
  inj : ∀ a b i, 0 ≤ i → al.addresses a = some i → al.addresses b = some i → a = b

theorem WF.empty : WF {} where
  idx := fun a i h => by simp at h
  inj := fun a b i _ h => by simp at h

theorem WF.addAddress {al : AccessList} (h : al.WF) (a : Addr) : (al.addAddress a).1.WF := by
  unfold AccessList.addAddress
  split
  · exact h
  · refine ⟨fun b i hb => ?_, fun b c i hi hb hc => ?_⟩ <;> simp only at *
    · by_cases e : b = a
      · subst e; rw [upd_same] at hb; cases hb; exact .inl rfl
      · rw [upd_other _ _ e] at hb; exact h.idx b i hb
    · by_cases e : b = a
      · subst e; rw [upd_same] at hb; cases hb; omega
      · by_cases e' : c = a
        · subst e'; rw [upd_same] at hc; cases hc; omega
        · rw [upd_other _ _ e] at hb; rw [upd_other _ _ e'] at hc; exact h.inj b c i hi hb hc

theorem WF.fresh {al : AccessList} (h : al.WF) (a : Addr) (k : Key) :
    WF { addresses := upd al.addresses a (some al.slots.length), slots := al.slots ++ [[k]] } := by
  refine ⟨fun b i hb => ?_, fun b c i hi hb hc => ?_⟩ <;> simp only at *
  · by_cases e : b = a
    · subst e; rw [upd_same] at hb; cases hb
      exact .inr ⟨by omega, [k], by simp, by simp⟩
    · rw [upd_other _ _ e] at hb
      rcases h.idx b i hb with h' | ⟨h', m, h1, h2⟩
      · exact .inl h'
      · exact .inr ⟨h', m, by rw [List.getElem?_append_left (List.getElem?_eq_some_iff.1 h1).1]; exact h1, h2⟩
  · have lt : ∀ x, al.addresses x ≠ some (al.slots.length : Int) := by
      intro x hx
      rcases h.idx x _ hx with h' | ⟨h', m, h1, h2⟩
      · omega
      · have := (List.getElem?_eq_some_iff.1 h1).1; omega
    by_cases e : b = a
    · by_cases e' : c = a
      · rw [e, e']
      · subst e; rw [upd_same] at hb; rw [upd_other _ _ e'] at hc; cases hb; exact absurd hc (lt c)
    · by_cases e' : c = a
      · subst e'; rw [upd_same] at hc; rw [upd_other _ _ e] at hb; cases hc; exact absurd hb (lt b)
      · rw [upd_other _ _ e] at hb; rw [upd_other _ _ e'] at hc; exact h.inj b c i hi hb hc

theorem WF.addSlot {al : AccessList} (h : al.WF) (a : Addr) (k : Key) : (al.addSlot a k).1.WF := by
  unfold AccessList.addSlot
  simp only
  split
  · exact h.fresh a k
  · split
    · exact h.fresh a k
    · split
      · exact h
      · refine ⟨fun b j hb => ?_, h.inj⟩
        rcases h.idx b j hb with h' | ⟨h', m, h1, h2⟩
        · exact .inl h'
        · refine .inr ⟨h', ?_⟩
          rw [List.getElem?_modify, h1]
          refine ⟨_, rfl, ?_⟩
          split
          · simp
          · exact h2

theorem addAddress_view {al : AccessList} (a : Addr) :
    (fun b => (al.addAddress a).1.containsAddress b) = upd al.containsAddress a true ∧
    (fun b k => ((al.addAddress a).1.contains b k).2) = fun b k => (al.contains b k).2 := by
  unfold AccessList.addAddress
  split
  · rename_i i h
    refine ⟨?_, rfl⟩
    funext b
    by_cases e : b = a
    · subst e; simp [containsAddress, upd, h]
    · simp [containsAddress, upd, e]
  · rename_i h
    constructor
    · funext b
      by_cases e : b = a <;> simp [containsAddress, upd, e]
    · funext b k
      by_cases e : b = a
      · subst e; simp [contains, upd, h]
      · simp [contains, upd, e]

theorem fresh_view {al : AccessList} (h : al.WF) {a : Addr} (k : Key) (ha : al.addresses a = none ∨ al.addresses a = some (-1)) :
    let al' : AccessList := { addresses := upd al.addresses a (some al.slots.length), slots := al.slots ++ [[k]] }
    (fun b => al'.containsAddress b) = upd al.containsAddress a true ∧
    (fun b k => (al'.contains b k).2) = upd (fun b k => (al.contains b k).2) a (upd (fun k => (al.contains a k).2) k true) := by
  have hn : ∀ k, (al.contains a k).2 = false := by
    intro k; rcases ha with h' | h' <;> simp [contains, h']
  constructor
  · funext b
    by_cases e : b = a <;> simp [containsAddress, upd, e]
  · funext b k'
    by_cases e : b = a
    · subst e
      simp only [contains, upd_same]
      rw [if_neg (by omega)]
      simp only [Int.toNat_natCast, List.getElem?_append_right (Nat.le_refl _), Nat.sub_self, List.getElem?_cons_zero,
        Option.getD_some]
      by_cases e : k' = k
      · subst e; simp [upd]
      · rw [upd_other _ _ e]
        have := hn k'
        simp only [contains] at this
        rw [this]; simp [e]
    · rw [upd_other _ _ e]
      simp only [contains, upd_other _ _ e]
      split
      · rfl
      · rename_i i hi
        split
        · rfl
        · rcases h.idx b i hi with h' | ⟨h', m, h1, h2⟩
          · contradiction
          · simp only
            rw [List.getElem?_append_left (List.getElem?_eq_some_iff.1 h1).1]

theorem addSlot_view {al : AccessList} (h : al.WF) (a : Addr) (k : Key) :
    (fun b => (al.addSlot a k).1.containsAddress b) = upd al.containsAddress a true ∧
    (fun b k' => ((al.addSlot a k).1.contains b k').2) =
      upd (fun b k => (al.contains b k).2) a (upd (fun k => (al.contains a k).2) k true) := by
  unfold AccessList.addSlot
  simp only
  split
  · rename_i ha; exact fresh_view h k (.inl ha)
  · rename_i i ha
    split
    · rename_i hi; subst hi; exact fresh_view h k (.inr ha)
    · rename_i hi
      have hc : (fun b => al.containsAddress b) = upd al.containsAddress a true := by
        funext b; by_cases e : b = a
        · subst e; simp [containsAddress, upd, ha]
        · simp [upd, e]
      split
      · rename_i hk
        refine ⟨hc, ?_⟩
        funext b k'
        by_cases e : b = a
        · subst e; rw [upd_same]
          by_cases e : k' = k
          · subst e; simp only [upd_same, contains, ha, hi, if_false, hk]
          · rw [upd_other _ _ e]
        · rw [upd_other _ _ e]
      · rename_i hk
        refine ⟨hc, ?_⟩
        rcases h.idx a i ha with h' | ⟨h', m, h1, h2⟩
        · contradiction
        funext b k'
        by_cases e : b = a
        · subst e; rw [upd_same]
          simp only [contains, ha, hi, if_false, List.getElem?_modify, h1, Option.map_some, Option.getD_some, if_true]
          by_cases e : k' = k
          · subst e; simp [upd]
          · rw [upd_other _ _ e]; simp [e]
        · rw [upd_other _ _ e]
          simp only [contains]
          split
          · rfl
          · rename_i j hj
            split
            · rfl
            · rcases h.idx b j hj with h'' | ⟨h'', m', h1', h2'⟩
              · contradiction
              · have : i.toNat ≠ j.toNat := by
                  intro he
                  have : i = j := by omega
                  subst this
                  exact e (h.inj b a i h' hj ha)
                simp only [List.getElem?_modify, this, if_false]
                simp

theorem addAddress_flag {al : AccessList} {a : Addr} : (al.addAddress a).2 = (al.addresses a).isNone := by
  unfold AccessList.addAddress; split <;> simp_all

theorem deleteAddress_addAddress {al : AccessList} {a : Addr} (h : al.addresses a = none) :
    (al.addAddress a).1.deleteAddress a = al := by
  unfold AccessList.addAddress
  rw [h]
  simp only [deleteAddress, upd_upd]
  rw [upd_self h]

theorem deleteSlot_fresh {al : AccessList} {a : Addr} {k : Key} (ha : al.addresses a = some (-1)) :
    deleteSlot { addresses := upd al.addresses a (some al.slots.length), slots := al.slots ++ [[k]] } a k = some al := by
  unfold deleteSlot
  simp only [upd_same]
  rw [if_neg (by omega)]
  simp only [Int.toNat_natCast, List.getElem?_append_right (Nat.le_refl _), Nat.sub_self, List.getElem?_cons_zero]
  rw [if_pos (by simp), upd_upd, upd_self ha]
  simp

theorem deleteSlot_addSlot {al : AccessList} (h : al.WF) {a : Addr} {k : Key} (ha : al.addresses a ≠ none)
    (hk : (al.contains a k).2 = false) : (al.addSlot a k).1.deleteSlot a k = some al := by
  unfold AccessList.addSlot
  simp only
  split
  · contradiction
  · rename_i i hi
    split
    · rename_i hm; subst hm; exact deleteSlot_fresh hi
    · rename_i hm
      rcases h.idx a i hi with h' | ⟨h', m, h1, h2⟩
      · contradiction
      simp only [contains, hi, hm, if_false, h1, Option.getD_some] at hk
      rw [h1, Option.getD_some, if_neg (by rw [hk]; simp)]
      unfold deleteSlot
      simp only [hi]
      rw [if_neg (by omega)]
      rw [List.getElem?_modify, h1]
      simp only [Option.map_eq_map, Option.map_some, if_true]
      have hf : (k :: m).filter (· ≠ k) = m := by
        rw [List.filter_cons_of_neg (by simp)]
        apply List.filter_eq_self.2
        intro x hx
        simp only [ne_eq, decide_eq_true_eq]
        rintro rfl
        have : m.contains x = true := by simpa using hx
        rw [hk] at this; cases this
      rw [hf, if_neg h2]
      congr 1
      have : (al.slots.modify i.toNat (k :: ·)).set i.toNat m = al.slots := by
        apply List.ext_getElem?
        intro j
        rw [List.getElem?_set]
        split
        · rename_i e; subst e
          rw [List.length_modify, if_pos (List.getElem?_eq_some_iff.1 h1).1, h1]
        · rename_i e
          simp [List.getElem?_modify, e]
      rw [this]

theorem addSlot_flags {al : AccessList} {a : Addr} {k : Key} :
    (al.addSlot a k).2.1 = (al.addresses a).isNone ∧
    (al.addSlot a k).2.2 = (!(al.contains a k).2) ∧
    ((al.contains a k).2 = true → (al.addSlot a k).1 = al) ∧
    (al.addresses a = none → (al.addSlot a k).1 = ((al.addAddress a).1.addSlot a k).1) := by
  unfold AccessList.addSlot contains
  simp only
  split
  · rename_i h
    refine ⟨by simp [h], by simp, by simp, fun _ => ?_⟩
    simp [AccessList.addAddress, h, upd_same, upd_upd]
  · rename_i i h
    split
    · refine ⟨by simp [h], by simp, by simp, fun h' => by rw [h] at h'; cases h'⟩
    · split
      · rename_i hk
        refine ⟨by simp [h], by simpa using hk, fun _ => rfl, fun h' => by rw [h] at h'; cases h'⟩
      · rename_i hk
        refine ⟨by simp [h], by simpa using hk, fun h' => absurd h' hk, fun h' => by rw [h] at h'; cases h'⟩

end AccessList

/-! ### The dirty map -/

/-- How often an address is named in the journal. -/
def touches (j : List Entry) (a : Addr) : Nat := j.countP (fun e => e.dirtied == some a)

structure DOK (d : List (Addr × Int)) (j : List Entry) : Prop where
  nodup : (d.map (·.1)).Nodup
  mem : ∀ a n, (a, n) ∈ d ↔ (n = (touches j a : Int) ∧ 0 < n)

theorem bump_keys (a : Addr) (d : List (Addr × Int)) :
    (bump a d).map (·.1) = if a ∈ d.map (·.1) then d.map (·.1) else d.map (·.1) ++ [a] := by
  induction d with
  | nil => rfl
  | cons x d ih =>
    obtain ⟨b, n⟩ := x
    unfold bump
    by_cases h : b = a
    · simp [h]
    · rw [if_neg h, List.map_cons, ih]
      have h' : ¬ a = b := fun e => h e.symm
      simp only [List.map_cons, List.mem_cons, h', false_or]
      split <;> rfl

theorem mem_bump {a : Addr} {d : List (Addr × Int)} (hd : (d.map (·.1)).Nodup) (b : Addr) (n : Int) :
    (b, n) ∈ bump a d ↔ (b ≠ a ∧ (b, n) ∈ d) ∨ (b = a ∧ ((a, n - 1) ∈ d ∨ (n = 1 ∧ a ∉ d.map (·.1)))) := by
  induction d with
  | nil => simp [bump]
  | cons x d ih =>
    obtain ⟨c, m⟩ := x
    simp only [List.map_cons, List.nodup_cons] at hd
    unfold bump
    by_cases h : c = a
    · subst h
      simp only [if_true, List.mem_cons, Prod.mk.injEq, List.map_cons]
      have hno : ∀ k, (c, k) ∉ d := fun k hk => hd.1 (List.mem_map.2 ⟨_, hk, rfl⟩)
      by_cases hb : b = c
      · subst hb
        simp [hno]
        omega
      · simp [hb]
    · have h' : ¬ a = c := fun e => h e.symm
      rw [if_neg h, List.mem_cons, ih hd.2]
      simp only [List.mem_cons, Prod.mk.injEq, List.map_cons, h', false_and, false_or]
      by_cases hb : b = a
      · subst hb; simp [h']
      · simp [hb]

theorem unbump_keys {a : Addr} {d : List (Addr × Int)} (ha : a ∈ d.map (·.1)) :
    (unbump a d).map (·.1) = d.map (·.1) ∨ (unbump a d).map (·.1) = (d.map (·.1)).erase a := by
  induction d with
  | nil => simp at ha
  | cons x d ih =>
    obtain ⟨b, n⟩ := x
    unfold unbump
    by_cases h : b = a
    · subst h
      simp only [if_true]
      split
      · right; simp
      · left; rfl
    · rw [if_neg h]
      have h' : ¬ a = b := fun e => h e.symm
      simp only [List.map_cons, List.mem_cons, h', false_or] at ha ⊢
      rcases ih ha with e | e
      · left; rw [e]
      · right; rw [e, List.erase_cons_tail (by simpa using h)]

theorem mem_unbump {a : Addr} {d : List (Addr × Int)} (hd : (d.map (·.1)).Nodup) (ha : a ∈ d.map (·.1)) (b : Addr) (n : Int) :
    (b, n) ∈ unbump a d ↔ (b ≠ a ∧ (b, n) ∈ d) ∨ (b = a ∧ (a, n + 1) ∈ d ∧ n ≠ 0) := by
  induction d with
  | nil => simp at ha
  | cons x d ih =>
    obtain ⟨c, m⟩ := x
    simp only [List.map_cons, List.nodup_cons] at hd
    unfold unbump
    by_cases h : c = a
    · subst h
      have hno : ∀ k, (c, k) ∉ d := fun k hk => hd.1 (List.mem_map.2 ⟨_, hk, rfl⟩)
      simp only [if_true]
      by_cases hb : b = c
      · subst hb
        split
        · rename_i hm
          constructor
          · intro h; exact absurd h (hno _)
          · rintro (⟨h, -⟩ | ⟨-, h, h0⟩)
            · exact absurd rfl h
            · rcases List.mem_cons.1 h with e | e
              · simp only [Prod.mk.injEq, true_and] at e; omega
              · exact absurd e (hno _)
        · rename_i hm
          simp only [List.mem_cons, Prod.mk.injEq, true_and]
          constructor
          · rintro (rfl | h)
            · exact .inr ⟨.inl (by omega), by omega⟩
            · exact absurd h (hno _)
          · rintro (⟨h, -⟩ | ⟨e | h, h0⟩)
            · exact absurd rfl h
            · left; omega
            · exact absurd h (hno _)
      · split
        · simp [hb]
        · simp [hb]
    · have h' : ¬ a = c := fun e => h e.symm
      simp only [List.map_cons, List.mem_cons, h', false_or] at ha
      rw [if_neg h, List.mem_cons, ih hd.2 ha]
      simp only [List.mem_cons, Prod.mk.injEq, h', false_and, false_or]
      by_cases hb : b = a
      · subst hb; simp [h']
      · simp [hb]

theorem touches_cons_same {e : Entry} {a : Addr} {j} (h : e.dirtied = some a) : touches (e :: j) a = touches j a + 1 := by
  unfold touches; rw [List.countP_cons_of_pos (by simp [h])]

theorem touches_cons_other {e : Entry} {a : Addr} {j} (h : e.dirtied ≠ some a) : touches (e :: j) a = touches j a := by
  unfold touches; rw [List.countP_cons_of_neg (by simpa using h)]

theorem DOK.mem_keys {d j} (h : DOK d j) {a : Addr} : a ∈ d.map (·.1) ↔ 0 < touches j a := by
  constructor
  · intro ha
    obtain ⟨⟨b, n⟩, hb, rfl⟩ := List.mem_map.1 ha
    have := (h.mem b n).1 hb
    show 0 < touches j b
    omega
  · intro ha
    exact List.mem_map.2 ⟨(a, (touches j a : Int)), (h.mem _ _).2 ⟨rfl, by omega⟩, rfl⟩

theorem DOK.bump {d j} (h : DOK d j) {e : Entry} {a : Addr} (he : e.dirtied = some a) : DOK (bump a d) (e :: j) := by
  refine ⟨?_, fun b n => ?_⟩
  · rw [bump_keys]
    split
    · exact h.nodup
    · rename_i hn; exact List.nodup_append.2 ⟨h.nodup, by simp, by
        intro x hx y hy; simp only [List.mem_singleton] at hy; subst hy; rintro rfl; exact hn hx⟩
  · rw [mem_bump h.nodup, h.mem, h.mem, h.mem_keys]
    by_cases hb : b = a
    · subst hb; rw [touches_cons_same he]
      simp only [ne_eq, not_true, false_and, false_or, true_and]
      omega
    · have : e.dirtied ≠ some b := by rw [he]; simp only [ne_eq, Option.some.injEq]; exact fun e => hb e.symm
      rw [touches_cons_other this]; simp [hb]

theorem DOK.skip {d j} (h : DOK d j) {e : Entry} (he : e.dirtied = none) : DOK d (e :: j) :=
  ⟨h.nodup, fun b n => by rw [h.mem, touches_cons_other (by rw [he]; simp)]⟩

theorem DOK.unbump {d j} {e : Entry} (h : DOK d (e :: j)) {a : Addr} (he : e.dirtied = some a) : DOK (unbump a d) j := by
  have ha : a ∈ d.map (·.1) := h.mem_keys.2 (by rw [touches_cons_same he]; omega)
  refine ⟨?_, fun b n => ?_⟩
  · rcases unbump_keys ha with e | e
    · rw [e]; exact h.nodup
    · rw [e]; exact h.nodup.erase a
  · rw [mem_unbump h.nodup ha, h.mem, h.mem]
    by_cases hb : b = a
    · subst hb; rw [touches_cons_same he]
      simp only [ne_eq, not_true, false_and, false_or, true_and]
      omega
    · have : e.dirtied ≠ some b := by rw [he]; simp only [ne_eq, Option.some.injEq]; exact fun e => hb e.symm
      rw [touches_cons_other this]; simp [hb]

theorem DOK.unskip {d j} {e : Entry} (h : DOK d (e :: j)) (he : e.dirtied = none) : DOK d j :=
  ⟨h.nodup, fun b n => by rw [h.mem, touches_cons_other (by rw [he]; simp)]⟩

end EVM
