import Verif.VersionDB.SorterLemmas
/-!
# The external sorter (C61)
-/
namespace VersionDB
open Bytes

/-- What the sorter's item keeps of a pair: a deletion has no value. -/
def kept (p : Pair) : Pair := if p.delete then ⟨true, p.key, []⟩ else p

/-- Decoding an item gives back version and pair. -/
theorem decode_encode {v : Nat} {p : Pair} (h : ItemOk v p) : decodeItem (encodeItem v p) = some (le 8 v, kept p) := by
  unfold decodeItem
  rw [tsOf_encode h, keyOf_encode h, keyLen_encode h, if_neg (by rw [encodeItem_length]; omega), flag_encode]
  dsimp only
  cases hd : p.delete with
  | true => simp [kept, hd]
  | false =>
    rw [if_neg (by decide), if_neg (by rw [encodeItem_length, hd, if_neg (by decide)]; omega), value_encode hd]
    cases p
    cases hd
    rfl

/-- The order on items is: smaller key first, newer version first for the same key. Keys are compared byte by byte. -/
theorem less_encode {v w : Nat} {p q : Pair} (hp : ItemOk v p) (hq : ItemOk w q) :
    less (encodeItem v p) (encodeItem w q) = true ↔ p.key < q.key ∨ (p.key = q.key ∧ w < v) := by
  unfold less
  rw [keyOf_encode hp, keyOf_encode hq, tsOf_encode hp, tsOf_encode hq, unle_le 8 v hp.2, unle_le 8 w hq.2]
  split
  · rename_i hne
    rw [decide_eq_true_eq]
    exact ⟨fun h => .inl h, fun h => h.elim id (fun h => absurd h.1 hne)⟩
  · rename_i he
    rw [Decidable.not_not] at he
    rw [decide_eq_true_eq, he]
    exact ⟨fun h => .inr ⟨rfl, h⟩, fun h => h.elim (fun h => absurd h (List.lt_irrefl _)) (·.2)⟩

/-- A chunk file gives back the items written to it, in order, and ends without error. -/
theorem delta_round_trip {items : List Item} (h : ∀ x ∈ items, x.length < 2 ^ 63) : stream (deltaFile [] items) = .ok items :=
  stream_file h

/-- Whatever the chunk size, however each chunk was sorted and in whatever order the goroutines finished: the output is the input, every item
as often as it was fed, in order. -/
theorem sorter_sorts {limit : Nat} {items out : List Item} (hl : ∀ x ∈ items, x.length < 2 ^ 63) (h : Sorts limit items out) :
    out.Perm items ∧ SortedBy less out := by
  obtain ⟨sorted, files, streams, h1, h2, h3, h4⟩ := h
  have hf := chunks_flatten limit items [] 0 (by simp)
  rw [List.nil_append] at hf
  obtain ⟨p1, s1⟩ := all2_perm_flatten h1
  rw [hf] at p1
  obtain ⟨streams', p2, h5⟩ := all2_perm_left h2 h3
  have hl' : ∀ s ∈ sorted, ∀ x ∈ s, x.length < 2 ^ 63 := fun s hs x hx => hl x (p1.mem_iff.1 (List.mem_flatten.2 ⟨s, hs, hx⟩))
  have e : streams' = sorted := streams_of_files hl' h5
  rw [e] at p2
  have p3 : streams.flatten.Perm sorted.flatten := p2.flatten
  refine ⟨((merged_perm h4).trans p3).trans p1, ?_⟩
  have hs : ∀ s ∈ streams, SortedBy less s := fun s hs => s1 s (p2.mem_iff.1 hs)
  have tr : ∀ a b c : Item, less b a = false → less c b = false → less c a = false := fun a b c h1 h2 => less_trans h1 h2
  exact merged_sorted tr h4 hs

/-- There always is such a run: nothing in the sorter gets stuck. -/
theorem sorter_runs (limit : Nat) {items : List Item} (hl : ∀ x ∈ items, x.length < 2 ^ 63) : ∃ out, Sorts limit items out := by
  let sort := fun c => StableSort.sortBy (fun a b => !less b a) c
  have hf := chunks_flatten limit items [] 0 (by simp)
  rw [List.nil_append] at hf
  obtain ⟨out, ho⟩ := merged_exists (lt := less) (fun _ _ _ => less_trans) less_total _ ((chunks limit [] 0 items).map sort) rfl
  refine ⟨out, (chunks limit [] 0 items).map sort, ((chunks limit [] 0 items).map sort).map (deltaFile []), _, all2_map (fun c _ => sort_one c), .refl _, ?_, ho⟩
  have := all2_map_left (R := fun f s => stream f = .ok s) (f := deltaFile []) (g := id) (as := (chunks limit [] 0 items).map sort) ?_
  · rwa [List.map_id] at this
  · intro s hs
    obtain ⟨c, hc, rfl⟩ := List.mem_map.1 hs
    refine stream_file (fun x hx => hl x ?_)
    rw [← hf]
    exact List.mem_flatten.2 ⟨c, hc, (sort_one c).1.mem_iff.1 hx⟩

/-- Fed with pairs of which no two have the same key and version, the sorter is deterministic: chunk size, sorting and scheduling make no
difference. -/
theorem sorter_deterministic {l1 l2 : Nat} {entries : List (Nat × Pair)} {out1 out2 : List Item}
    (hok : ∀ e ∈ entries, ItemOk e.1 e.2 ∧ (encodeItem e.1 e.2).length < 2 ^ 63)
    (hd : entries.Pairwise (fun a b => ¬(a.1 = b.1 ∧ a.2.key = b.2.key)))
    (h1 : Sorts l1 (entries.map (fun e => encodeItem e.1 e.2)) out1) (h2 : Sorts l2 (entries.map (fun e => encodeItem e.1 e.2)) out2) :
    out1 = out2 := by
  have hl : ∀ x ∈ entries.map (fun e => encodeItem e.1 e.2), x.length < 2 ^ 63 := by
    intro x hx
    obtain ⟨e, he, rfl⟩ := List.mem_map.1 hx
    exact (hok e he).2
  obtain ⟨p1, s1⟩ := sorter_sorts hl h1
  obtain ⟨p2, s2⟩ := sorter_sorts hl h2
  apply sorted_unique (p1.trans p2.symm) s1 s2
  intro a ha b hb h3 h4
  obtain ⟨e, he, rfl⟩ := List.mem_map.1 (p1.mem_iff.1 ha)
  obtain ⟨f, hf, rfl⟩ := List.mem_map.1 (p1.mem_iff.1 hb)
  have h3' : ¬ _ := fun h => absurd ((less_encode (hok e he).1 (hok f hf).1).2 h) (by rw [h3]; decide)
  have h4' : ¬ _ := fun h => absurd ((less_encode (hok f hf).1 (hok e he).1).2 h) (by rw [h4]; decide)
  have hk : e.2.key = f.2.key := by
    rcases List.le_iff_lt_or_eq.1 (List.not_lt.1 (fun h => h3' (.inl h))) with h | h
    · exact absurd (.inl h) h4'
    · exact h.symm
  have hv : e.1 = f.1 := by
    have a1 : ¬ f.1 < e.1 := fun h => h3' (.inr ⟨hk, h⟩)
    have a2 : ¬ e.1 < f.1 := fun h => h4' (.inr ⟨hk.symm, h⟩)
    omega
  have : e = f := by
    apply Decidable.byContradiction
    intro hne
    have key : ∀ (l : List (Nat × Pair)), l.Pairwise (fun a b => ¬(a.1 = b.1 ∧ a.2.key = b.2.key)) → e ∈ l → f ∈ l → False := by
      intro l
      induction l with
      | nil => intro _ h; cases h
      | cons x xs ih =>
        intro hp h5 h6
        have hp' := List.pairwise_cons.1 hp
        rcases List.mem_cons.1 h5 with g5 | g5 <;> rcases List.mem_cons.1 h6 with g6 | g6
        · exact hne (g5.trans g6.symm)
        · rw [← g5] at hp'; exact hp'.1 f g6 ⟨hv, hk⟩
        · rw [← g6] at hp'; exact hp'.1 e g5 ⟨hv.symm, hk.symm⟩
        · exact ih hp'.2 g5 g6
    exact key entries hd he hf
  rw [this]

/-! ### Concrete cases -/

def someEntries : List (Nat × Pair) := [(1, ⟨false, [5], [1]⟩), (1, ⟨false, [5, 0], [2]⟩), (2, ⟨true, [5], []⟩), (3, ⟨false, [4], []⟩)]

instance (v : Nat) (p : Pair) : Decidable (ItemOk v p) := by unfold ItemOk; infer_instance

example : ∀ e ∈ someEntries, ItemOk e.1 e.2 ∧ (encodeItem e.1 e.2).length < 2 ^ 63 := by decide +kernel
example : someEntries.Pairwise (fun a b => ¬(a.1 = b.1 ∧ a.2.key = b.2.key)) := by decide +kernel
example : ∃ out, Sorts 20 (someEntries.map (fun e => encodeItem e.1 e.2)) out := sorter_runs 20 (by decide +kernel)

end VersionDB
