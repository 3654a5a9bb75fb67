import Verif.VersionDB.Sorter
import Verif.VersionDB.ChangeSetLemmas
import Verif.Lib.Sort
/-! Lemmas on the external sorter. -/
namespace VersionDB
open Bytes Varint

/-- Keys and versions that fit their fields. -/
def ItemOk (version : Nat) (p : Pair) : Prop := p.key.length < 2 ^ 32 ∧ version < 2 ^ 64

theorem encodeItem_length (v : Nat) (p : Pair) : (encodeItem v p).length = p.key.length + 8 + (if p.delete then 1 else p.value.length + 1) + 4 := by
  unfold encodeItem
  rw [List.length_append, List.length_append, List.length_append, le_length, le_length]
  split <;> simp

theorem keyLen_encode {v : Nat} {p : Pair} (h : ItemOk v p) : keyLen (encodeItem v p) = p.key.length := by
  unfold keyLen
  have : (encodeItem v p).length - 4 = (p.key ++ le 8 v ++ (if p.delete then [1] else 0 :: p.value)).length := by
    unfold encodeItem
    rw [List.length_append (bs := le 4 _), le_length]; omega
  rw [this]
  unfold encodeItem
  rw [List.drop_left]
  exact unle_le 4 _ h.1

theorem keyOf_encode {v : Nat} {p : Pair} (h : ItemOk v p) : keyOf (encodeItem v p) = p.key := by
  unfold keyOf
  rw [keyLen_encode h]
  unfold encodeItem
  rw [List.append_assoc, List.append_assoc, List.take_left]

theorem tsOf_encode {v : Nat} {p : Pair} (h : ItemOk v p) : tsOf (encodeItem v p) = le 8 v := by
  unfold tsOf
  rw [keyLen_encode h]
  unfold encodeItem
  rw [List.append_assoc, List.append_assoc, List.drop_left]
  have := le_length 8 v
  conv => lhs; rw [← this]
  rw [this]
  exact List.take_left' (le_length 8 v)

theorem flag_encode {v : Nat} {p : Pair} : (encodeItem v p)[p.key.length + 8]? = some (if p.delete then 1 else 0) := by
  unfold encodeItem
  rw [List.append_assoc, List.getElem?_append_right (by rw [List.length_append, le_length]; omega)]
  rw [List.length_append, le_length, Nat.sub_self]
  split <;> rfl

theorem value_encode {v : Nat} {p : Pair} (hd : p.delete = false) :
    ((encodeItem v p).drop (p.key.length + 9)).take ((encodeItem v p).length - 4 - (p.key.length + 9)) = p.value := by
  have hl : (encodeItem v p).length - 4 - (p.key.length + 9) = p.value.length := by
    rw [encodeItem_length, hd, if_neg (by decide)]; omega
  rw [hl]
  have : encodeItem v p = (p.key ++ le 8 v ++ [0]) ++ (p.value ++ le 4 p.key.length) := by
    unfold encodeItem
    rw [hd, if_neg (by decide)]
    simp
  rw [this]
  rw [List.drop_left' (by simp)]
  exact List.take_left

/-! ### The order -/

theorem less_false {a b : Item} : less b a = false ↔ keyOf a < keyOf b ∨ (keyOf a = keyOf b ∧ unle (tsOf b) ≤ unle (tsOf a)) := by
  unfold less
  split
  · rename_i h
    rw [decide_eq_false_iff_not, List.not_lt]
    constructor
    · intro h2
      rcases List.le_iff_lt_or_eq.1 h2 with h3 | h3
      · exact .inl h3
      · exact absurd h3.symm h
    · rintro (h2 | h2)
      · exact List.le_of_lt h2
      · exact absurd h2.1.symm h
  · rename_i h
    rw [Decidable.not_not] at h
    rw [decide_eq_false_iff_not, Nat.not_lt, h]
    constructor
    · exact fun h2 => .inr ⟨rfl, h2⟩
    · rintro (h2 | h2)
      · exact absurd h2 (List.lt_irrefl _)
      · exact h2.2

theorem less_trans {a b c : Item} (h1 : less b a = false) (h2 : less c b = false) : less c a = false := by
  rw [less_false] at *
  rcases h1 with h1 | ⟨e1, h1⟩
  · rcases h2 with h2 | ⟨e2, h2⟩
    · exact .inl (List.lt_trans h1 h2)
    · exact .inl (e2 ▸ h1)
  · rcases h2 with h2 | ⟨e2, h2⟩
    · exact .inl (e1 ▸ h2)
    · exact .inr ⟨e1.trans e2, Nat.le_trans h2 h1⟩

theorem less_total (a b : Item) : less b a = false ∨ less a b = false := by
  rw [less_false, less_false]
  rcases Decidable.em (keyOf a = keyOf b) with e | e
  · rw [e]
    rcases Nat.le_total (unle (tsOf b)) (unle (tsOf a)) with h | h
    · exact .inl (.inr ⟨rfl, h⟩)
    · exact .inr (.inr ⟨rfl, h⟩)
  · rcases List.le_total (keyOf a) (keyOf b) with h | h
    · rcases List.le_iff_lt_or_eq.1 h with h | h
      · exact .inl (.inl h)
      · exact absurd h e
    · rcases List.le_iff_lt_or_eq.1 h with h | h
      · exact .inr (.inl h)
      · exact absurd h.symm e

/-! ### Delta encoding -/

theorem diffOffset_le (a b : List UInt8) : diffOffset a b ≤ a.length ∧ diffOffset a b ≤ b.length ∧ a.take (diffOffset a b) = b.take (diffOffset a b) := by
  fun_induction diffOffset a b with
  | case1 a as bs ih => exact ⟨by simp only [List.length_cons]; omega, by simp only [List.length_cons]; omega, by
      rw [List.take_succ_cons, List.take_succ_cons, ih.2.2]⟩
  | case2 => simp
  | case3 => simp

theorem deltaRead_write {last item : Item} (h1 : last.length < 2 ^ 63) (h2 : item.length < 2 ^ 63) (rest : List UInt8) :
    deltaRead last (deltaWrite last item ++ rest) = .ok (item, rest) := by
  obtain ⟨a, b, c⟩ := diffOffset_le last item
  unfold deltaWrite deltaRead
  generalize diffOffset last item = d at *
  have e64 : (2:Nat) ^ 63 ≤ 2 ^ (64 - 7 * 0) := by decide
  rw [List.append_assoc, List.append_assoc, readUvarint_put d 0 (by omega) (by omega)]
  dsimp only
  rw [readUvarint_put (item.length - d) 0 (by omega) (by omega)]
  dsimp only
  rw [if_neg (by omega)]
  have : item.length - d = (item.drop d).length := by rw [List.length_drop]
  rw [this, readFull_append]
  dsimp only
  rw [c, List.take_append_drop]

theorem putUvarint_pos (n : Nat) : 0 < (putUvarint n).length := by
  rw [← uvarintSize_eq]
  unfold uvarintSize
  dsimp only
  split <;> omega

theorem deltaWrite_pos (last item : Item) : 2 ≤ (deltaWrite last item).length := by
  unfold deltaWrite
  rw [List.length_append, List.length_append]
  have := putUvarint_pos (diffOffset last item)
  have := putUvarint_pos (item.length - diffOffset last item)
  omega

theorem deltaItems_file (items : List Item) : ∀ (last : Item) (fuel : Nat), last.length < 2 ^ 63 → (∀ x ∈ items, x.length < 2 ^ 63) →
    (deltaFile last items).length < fuel → deltaItems fuel last (deltaFile last items) = .ok items := by
  induction items with
  | nil =>
    intro last fuel _ _ hf
    cases fuel with
    | zero => omega
    | succ f => rfl
  | cons x xs ih =>
    intro last fuel hl hx hf
    cases fuel with
    | zero => omega
    | succ f =>
      show (match deltaRead last (deltaWrite last x ++ deltaFile x xs) with
        | .error .eof => Except.ok []
        | .error e => .error e
        | .ok (x, bs) => match deltaItems f x bs with
          | .error e => .error e
          | .ok xs => .ok (x :: xs)) = _
      rw [deltaRead_write hl (hx x List.mem_cons_self)]
      dsimp only
      have hf' : (deltaWrite last x ++ deltaFile x xs).length < f + 1 := hf
      have := deltaWrite_pos last x
      rw [List.length_append] at hf'
      rw [ih x f (hx x List.mem_cons_self) (fun y hy => hx y (List.mem_cons_of_mem _ hy)) (by omega)]

theorem stream_file {items : List Item} (h : ∀ x ∈ items, x.length < 2 ^ 63) : stream (deltaFile [] items) = .ok items :=
  deltaItems_file items [] _ (by decide) h (Nat.lt_succ_self _)

/-! ### Chunks and merging -/

theorem chunks_flatten (limit : Nat) (items : List Item) : ∀ (current : List Item) (size : Nat), (current = [] ↔ size = 0) →
    (chunks limit current size items).flatten = current ++ items := by
  induction items with
  | nil =>
    intro current size h
    unfold chunks
    split
    · simp
    · rw [h.2 (by omega)]; rfl
  | cons x xs ih =>
    intro current size h
    unfold chunks
    split
    · rw [List.flatten_cons, ih [] 0 (by simp)]; simp
    · rw [ih _ _ (by simp)]; simp

theorem all2_perm_flatten {α : Type} {P : List α → Prop} {cs ss : List (List α)} (h : All2 (fun c s => s.Perm c ∧ P s) cs ss) :
    ss.flatten.Perm cs.flatten ∧ ∀ s ∈ ss, P s := by
  induction h with
  | nil => exact ⟨.refl _, by simp⟩
  | cons h t ih =>
    refine ⟨?_, ?_⟩
    · rw [List.flatten_cons, List.flatten_cons]; exact h.1.append ih.1
    · intro s hs
      rcases List.mem_cons.1 hs with rfl | hs
      · exact h.2
      · exact ih.2 s hs

theorem flatten_middle {α : Type} (b a : List (List α)) (x : α) (xs : List α) :
    (b ++ (x :: xs) :: a).flatten.Perm (x :: (b ++ xs :: a).flatten) := by
  rw [List.flatten_append, List.flatten_append, List.flatten_cons, List.flatten_cons]
  exact List.perm_middle

theorem merged_perm {α : Type} {lt : α → α → Bool} {ss : List (List α)} {out : List α} (h : Merged lt ss out) : out.Perm ss.flatten := by
  induction h with
  | done ss h =>
    have : ss.flatten = [] := by
      rw [List.flatten_eq_nil_iff]; exact h
    rw [this]
  | next b a x xs out _ _ ih => exact (ih.cons x).trans (flatten_middle b a x xs).symm

theorem merged_sorted {α : Type} {lt : α → α → Bool} (tr : ∀ a b c, lt b a = false → lt c b = false → lt c a = false)
    {ss : List (List α)} {out : List α} (h : Merged lt ss out) (hs : ∀ s ∈ ss, SortedBy lt s) : SortedBy lt out := by
  induction h with
  | done => exact .nil
  | next b a x xs out least rest ih =>
    have hx := hs (x :: xs) (by simp)
    have hx' := List.pairwise_cons.1 hx
    have hrest : ∀ s ∈ b ++ xs :: a, SortedBy lt s := by
      intro s h
      rcases List.mem_append.1 h with h | h
      · exact hs s (by simp [h])
      · rcases List.mem_cons.1 h with rfl | h
        · exact hx'.2
        · exact hs s (by simp [h])
    refine List.pairwise_cons.2 ⟨?_, ih hrest⟩
    intro y hy
    have hy2 := (merged_perm rest).mem_iff.1 hy
    obtain ⟨s, hs1, hs2⟩ := List.mem_flatten.1 hy2
    rcases List.mem_append.1 hs1 with h | h
    · cases s with
      | nil => simp at hs2
      | cons z zs =>
        have hz := least _ (List.mem_append_left _ h) z zs rfl
        rcases List.mem_cons.1 hs2 with rfl | hm
        · exact hz
        · exact tr _ _ _ hz ((List.pairwise_cons.1 (hs (z :: zs) (by simp [h]))).1 y hm)
    · rcases List.mem_cons.1 h with rfl | h
      · exact hx'.1 y hs2
      · cases s with
        | nil => simp at hs2
        | cons z zs =>
          have hz := least _ (List.mem_append_right _ h) z zs rfl
          rcases List.mem_cons.1 hs2 with rfl | hm
          · exact hz
          · exact tr _ _ _ hz ((List.pairwise_cons.1 (hs (z :: zs) (by simp [h]))).1 y hm)

theorem all2_perm_left {α β : Type} {R : α → β → Prop} {as as' : List α} (hp : as.Perm as') :
    ∀ {bs : List β}, All2 R as bs → ∃ bs', bs.Perm bs' ∧ All2 R as' bs' := by
  induction hp with
  | nil => intro bs h; exact ⟨bs, .refl _, h⟩
  | cons x _ ih =>
    intro bs h
    cases h with
    | cons h t => obtain ⟨bs', p, h'⟩ := ih t; exact ⟨_, p.cons _, .cons h h'⟩
  | swap x y l =>
    intro bs h
    cases h with
    | cons h t => cases t with
      | cons h2 t => exact ⟨_, .swap _ _ _, .cons h2 (.cons h t)⟩
  | trans _ _ ih1 ih2 =>
    intro bs h
    obtain ⟨b1, p1, h1⟩ := ih1 h
    obtain ⟨b2, p2, h2⟩ := ih2 h1
    exact ⟨b2, p1.trans p2, h2⟩

/-- Reading back the files gives the sorted chunks, in the order of the files. -/
theorem streams_of_files {sorted : List (List Item)} (hl : ∀ s ∈ sorted, ∀ x ∈ s, x.length < 2 ^ 63) :
    ∀ {streams : List (List Item)}, All2 (fun f s => stream f = .ok s) (sorted.map (deltaFile [])) streams → streams = sorted := by
  induction sorted with
  | nil => intro streams h; cases h; rfl
  | cons s ss ih =>
    intro streams h
    cases h with
    | cons h t =>
      rw [stream_file (hl s List.mem_cons_self)] at h
      cases h
      rw [ih (fun s hs => hl s (List.mem_cons_of_mem _ hs)) t]

/-- Sorted in the same order with all elements different in the order: the same list. -/
theorem sorted_unique {α : Type} {lt : α → α → Bool} {l m : List α} (hp : l.Perm m) (hl : SortedBy lt l) (hm : SortedBy lt m)
    (hd : ∀ a ∈ l, ∀ b ∈ l, lt a b = false → lt b a = false → a = b) : l = m := by
  induction l generalizing m with
  | nil => rw [List.nil_perm.1 hp]
  | cons x xs ih =>
    cases m with
    | nil => exact absurd hp.symm (by simp)
    | cons y ys =>
      have hl' := List.pairwise_cons.1 hl
      have hm' := List.pairwise_cons.1 hm
      have hxy : x = y := by
        rcases List.mem_cons.1 (hp.mem_iff.1 (List.mem_cons_self : x ∈ x :: xs)) with h | h
        · exact h
        · rcases List.mem_cons.1 (hp.mem_iff.2 (List.mem_cons_self : y ∈ y :: ys)) with h2 | h2
          · exact h2.symm
          · exact hd x List.mem_cons_self y (List.mem_cons_of_mem _ h2) (hm'.1 x h) (hl'.1 y h2)
      subst hxy
      rw [ih (hp.cons_inv) hl'.2 hm'.2 (fun a ha b hb => hd a (List.mem_cons_of_mem _ ha) b (List.mem_cons_of_mem _ hb))]

/-! ### A run exists -/

theorem least_head {α : Type} {lt : α → α → Bool} (tr : ∀ a b c, lt b a = false → lt c b = false → lt c a = false)
    (tot : ∀ a b, lt b a = false ∨ lt a b = false) (ss : List (List α)) :
    (∀ s ∈ ss, s = []) ∨ ∃ b x xs a, ss = b ++ (x :: xs) :: a ∧ ∀ s ∈ b ++ a, ∀ y ys, s = y :: ys → lt y x = false := by
  induction ss with
  | nil => left; simp
  | cons s ss ih =>
    rcases ih with h | ⟨b, x, xs, a, e, h⟩
    · cases s with
      | nil => left; intro s hs; rcases List.mem_cons.1 hs with rfl | hs; rfl; exact h s hs
      | cons x xs =>
        right
        refine ⟨[], x, xs, ss, rfl, ?_⟩
        intro s hs y ys e
        rw [List.nil_append] at hs
        rw [h s hs] at e; cases e
    · right
      cases s with
      | nil =>
        refine ⟨[] :: b, x, xs, a, by rw [e]; rfl, ?_⟩
        intro s hs y ys e2
        rcases List.mem_cons.1 hs with rfl | hs
        · cases e2
        · exact h s hs y ys e2
      | cons z zs =>
        rcases tot x z with hz | hz
        · refine ⟨(z :: zs) :: b, x, xs, a, by rw [e]; rfl, ?_⟩
          intro s hs y ys e2
          rcases List.mem_cons.1 hs with rfl | hs
          · cases e2; exact hz
          · exact h s hs y ys e2
        · refine ⟨[], z, zs, ss, rfl, ?_⟩
          intro s hs y ys e2
          rw [List.nil_append, e] at hs
          rcases List.mem_append.1 hs with hs | hs
          · exact tr _ _ _ hz (h s (List.mem_append_left _ hs) y ys e2)
          · rcases List.mem_cons.1 hs with rfl | hs
            · cases e2; exact hz
            · exact tr _ _ _ hz (h s (List.mem_append_right _ hs) y ys e2)

theorem merged_exists {α : Type} {lt : α → α → Bool} (tr : ∀ a b c, lt b a = false → lt c b = false → lt c a = false)
    (tot : ∀ a b, lt b a = false ∨ lt a b = false) (n : Nat) : ∀ ss : List (List α), ss.flatten.length = n → ∃ out, Merged lt ss out := by
  induction n with
  | zero =>
    intro ss h
    exact ⟨[], .done ss (List.flatten_eq_nil_iff.1 (List.length_eq_zero_iff.1 h))⟩
  | succ n ih =>
    intro ss h
    rcases least_head tr tot ss with h2 | ⟨b, x, xs, a, e, h2⟩
    · rw [List.flatten_eq_nil_iff.2 h2] at h; cases h
    · subst e
      have := (flatten_middle b a x xs).length_eq
      rw [List.length_cons] at this
      obtain ⟨out, ho⟩ := ih (b ++ xs :: a) (by omega)
      exact ⟨x :: out, .next b a x xs out h2 ho⟩

theorem all2_map {α β : Type} {R : α → β → Prop} {f : α → β} {as : List α} (h : ∀ a ∈ as, R a (f a)) : All2 R as (as.map f) := by
  induction as with
  | nil => exact .nil
  | cons a as ih => exact .cons (h a List.mem_cons_self) (ih (fun b hb => h b (List.mem_cons_of_mem _ hb)))

theorem all2_map_left {α β γ : Type} {R : γ → β → Prop} {f : α → γ} {g : α → β} {as : List α} (h : ∀ a ∈ as, R (f a) (g a)) :
    All2 R (as.map f) (as.map g) := by
  induction as with
  | nil => exact .nil
  | cons a as ih => exact .cons (h a List.mem_cons_self) (ih (fun b hb => h b (List.mem_cons_of_mem _ hb)))

theorem sort_one (c : List Item) : (StableSort.sortBy (fun a b => !less b a) c).Perm c ∧ SortedBy less (StableSort.sortBy (fun a b => !less b a) c) := by
  refine ⟨StableSort.sortBy_perm _ _, ?_⟩
  have := StableSort.sortBy_pairwise (le := fun a b => !less b a)
    (fun a b c h1 h2 => by
      simp only [Bool.not_eq_true'] at *
      exact less_trans h1 h2)
    (fun a b => by
      rcases less_total a b with h | h <;> simp [h]) c
  exact this.imp (fun h => by simpa using h)

end VersionDB
