import Verif.MemIAVL.WalFile
/-!
# memiavl: opening a damaged log (C15)

`segment es` are the bytes of a segment holding the entries `es`.
-/
namespace MemIAVL
open Varint

/-- The bytes of the entries, one after the other. -/
def segment (es : List (List UInt8)) : List UInt8 := es.flatMap encodeBytes

/-- `d` is what an interrupted write of the entry `e` leaves: some, but not all, of its bytes. -/
def PartOf (d e : List UInt8) : Prop := d ≠ [] ∧ ∃ rest, rest ≠ [] ∧ d ++ rest = encodeBytes e

/-! ### Helper lemmas -/

theorem goUvarint_put (x i : Nat) (hi : i ≤ 9) (hx : x < 2 ^ (64 - 7 * i)) (rest : List UInt8) :
    goUvarint i (putUvarint x ++ rest) = some (x, (putUvarint x).length) := by
  induction x using Nat.strongRecOn generalizing i with
  | ind x ih =>
    have hi9 : i = 9 → x ≤ 1 := by
      rintro rfl
      have : x < 2 ^ 1 := hx
      omega
    unfold putUvarint
    split
    · rename_i h
      simp only [List.cons_append, List.nil_append, goUvarint, UInt8.toNat_ofNat']
      rw [Nat.mod_eq_of_lt (by omega), if_neg (by omega), if_pos h, if_neg (by omega)]
      simp
    · rename_i h
      have h1 : (x % 128 + 128) % 256 = x % 128 + 128 := by omega
      have hi8 : i ≤ 8 := by
        by_cases h9 : i = 9
        · have := hi9 h9; omega
        · omega
      have hd : x / 128 < 2 ^ (64 - 7 * (i + 1)) := by
        rw [Nat.div_lt_iff_lt_mul (by omega)]
        have : 2 ^ (64 - 7 * i) = 2 ^ (64 - 7 * (i + 1)) * 128 := by
          rw [show (128 : Nat) = 2 ^ 7 by rfl, ← Nat.pow_add]
          congr 1; omega
        omega
      have h2 := ih (x / 128) (by omega) (i + 1) (by omega) hd
      simp only [List.cons_append, goUvarint, UInt8.toNat_ofNat', h1, h2, Nat.reducePow]
      rw [if_neg (by omega), if_neg (by omega)]
      simp only [Option.map_some, Option.some.injEq, Prod.mk.injEq, List.length_cons, and_true]
      omega

/-- A proper prefix of a varint does not parse. -/
theorem goUvarint_prefix (x i : Nat) {d rest : List UInt8} (hr : rest ≠ []) (h : d ++ rest = putUvarint x) : goUvarint i d = none := by
  induction x using Nat.strongRecOn generalizing i d with
  | ind x ih =>
    unfold putUvarint at h
    split at h
    · cases d with
      | nil => rfl
      | cons b d =>
        simp only [List.cons_append, List.cons.injEq, List.append_eq_nil_iff] at h
        exact absurd h.2.2 hr
    · rename_i hx
      cases d with
      | nil => rfl
      | cons b d =>
        simp only [List.cons_append, List.cons.injEq] at h
        obtain ⟨rfl, h⟩ := h
        have h1 : (x % 128 + 128) % 256 = x % 128 + 128 := by omega
        simp only [goUvarint, UInt8.toNat_ofNat', h1, Nat.reducePow, ih (x / 128) (by omega) (i + 1) h]
        split
        · rfl
        · rw [if_neg (by omega)]; rfl

theorem goUvarint_entry {e : List UInt8} (he : e.length < 2 ^ 64) (rest : List UInt8) :
    goUvarint 0 (encodeBytes e ++ rest) = some (e.length, (putUvarint e.length).length) := by
  unfold encodeBytes
  rw [List.append_assoc]
  exact goUvarint_put _ 0 (by omega) (by simpa using he) _

theorem loadNext_entry {e : List UInt8} (he : e.length < 2 ^ 64) (rest : List UInt8) :
    loadNext (encodeBytes e ++ rest) = some (encodeBytes e).length := by
  unfold loadNext
  rw [goUvarint_entry he]
  simp only [encodeBytes, List.length_append]
  rw [if_neg (by omega)]

theorem loadNext_part {d e : List UInt8} (he : e.length < 2 ^ 64) (h : PartOf d e) : loadNext d = none := by
  obtain ⟨-, rest, hr, h⟩ := h
  unfold encodeBytes at h
  rcases List.append_eq_append_iff.1 h with ⟨m, h1, h2⟩ | ⟨m, h1, h2⟩
  · by_cases hm : m = []
    · subst hm
      simp only [List.append_nil] at h1
      subst h1
      unfold loadNext
      have := goUvarint_put e.length 0 (by omega) (by simpa using he) []
      rw [List.append_nil] at this
      rw [this]
      simp only
      rw [if_pos]
      simp only [List.nil_append] at h2
      subst h2
      have := List.length_pos_iff.2 hr
      omega
    · unfold loadNext
      rw [goUvarint_prefix e.length 0 hm h1.symm]
  · subst h1
    unfold loadNext
    rw [goUvarint_put e.length 0 (by omega) (by simpa using he)]
    simp only [List.length_append]
    rw [if_pos]
    rw [h2]
    have := List.length_pos_iff.2 hr
    simp only [List.length_append]
    omega

theorem encodeBytes_length_pos (e : List UInt8) : 0 < (encodeBytes e).length := by
  unfold encodeBytes
  have := List.length_pos_iff.2 (putUvarint_ne_nil e.length)
  rw [List.length_append]; omega

theorem walk_segment {es : List (List UInt8)} (hes : ∀ e ∈ es, e.length < 2 ^ 64) {d : List UInt8} (hd : d = [] ∨ loadNext d = none)
    {fuel : Nat} (hf : (segment es).length ≤ fuel) : walkEntries fuel (segment es ++ d) = ((segment es).length, d) := by
  induction es generalizing fuel with
  | nil =>
    simp only [segment, List.flatMap_nil, List.nil_append, List.length_nil]
    cases fuel with
    | zero => rfl
    | succ f =>
      simp only [walkEntries]
      split
      · rfl
      · rename_i h; rw [hd.resolve_left h]
  | cons e es ih =>
    have hp := encodeBytes_length_pos e
    simp only [segment, List.flatMap_cons, List.length_append] at hf ⊢
    cases fuel with
    | zero => omega
    | succ f =>
      simp only [walkEntries]
      have hne : encodeBytes e ++ (List.flatMap encodeBytes es) ++ d ≠ [] := by
        intro h
        have := congrArg List.length h
        simp only [List.length_append, List.length_nil] at this; omega
      rw [if_neg hne, List.append_assoc, loadNext_entry (hes e (by simp))]
      simp only [List.drop_left]
      rw [show List.flatMap encodeBytes es = segment es from rfl, ih (fun e he => hes e (by simp [he])) (by simp only [segment]; omega)]

theorem openSegment_segment {es : List (List UInt8)} (hes : ∀ e ∈ es, e.length < 2 ^ 64) {fuel : Nat}
    (hf : (segment es).length ≤ fuel) : openSegment fuel (segment es) = some es := by
  induction es generalizing fuel with
  | nil => cases fuel <;> simp [segment, openSegment]
  | cons e es ih =>
    have hp := encodeBytes_length_pos e
    simp only [segment, List.flatMap_cons, List.length_append] at hf ⊢
    cases fuel with
    | zero => omega
    | succ f =>
      simp only [openSegment]
      have hne : encodeBytes e ++ (List.flatMap encodeBytes es) ≠ [] := by
        intro h
        have := congrArg List.length h
        simp only [List.length_append, List.length_nil] at this; omega
      rw [if_neg hne, goUvarint_entry (hes e (by simp))]
      have hl : (encodeBytes e).length = (putUvarint e.length).length + e.length := by simp [encodeBytes]
      simp only
      rw [if_neg (by rw [List.length_append]; omega)]
      rw [← hl, List.drop_left, show List.flatMap encodeBytes es = segment es from rfl,
        ih (fun e he => hes e (by simp [he])) (by simp only [segment]; omega)]
      simp only [Option.map_some, Option.some.injEq, List.cons.injEq, and_true]
      rw [encodeBytes, List.append_assoc, List.drop_left, List.take_left]

theorem openSegment_damaged {es : List (List UInt8)} (hes : ∀ e ∈ es, e.length < 2 ^ 64) {d : List UInt8} (hd : d ≠ [])
    (hd' : loadNext d = none) (fuel : Nat) : openSegment fuel (segment es ++ d) = none := by
  induction es generalizing fuel with
  | nil =>
    simp only [segment, List.flatMap_nil, List.nil_append]
    cases fuel with
    | zero => simp [openSegment, hd]
    | succ f =>
      simp only [openSegment]
      rw [if_neg hd]
      unfold loadNext at hd'
      cases hg : goUvarint 0 d with
      | none => rfl
      | some p =>
        obtain ⟨size, n⟩ := p
        rw [hg] at hd'
        simp only at hd' ⊢
        split at hd'
        · rename_i hc; rw [if_pos hc]
        · cases hd'
  | cons e es ih =>
    have hp := encodeBytes_length_pos e
    simp only [segment, List.flatMap_cons]
    have hne : encodeBytes e ++ (List.flatMap encodeBytes es) ++ d ≠ [] := by
      intro h
      have := congrArg List.length h
      simp only [List.length_append, List.length_nil] at this; omega
    cases fuel with
    | zero => simp only [openSegment]; rw [if_neg hne]
    | succ f =>
      simp only [openSegment]
      rw [if_neg hne, List.append_assoc, goUvarint_entry (hes e (by simp))]
      have hl : (encodeBytes e).length = (putUvarint e.length).length + e.length := by simp [encodeBytes]
      simp only
      rw [if_neg (by rw [List.length_append]; omega)]
      rw [← hl, List.drop_left, show List.flatMap encodeBytes es = segment es from rfl,
        ih (fun e he => hes e (by simp [he]))]
      rfl

/-! ### Theorems -/

/-- An undamaged log opens with exactly its entries. -/
theorem C15_undamaged (es : List (List UInt8)) (hes : ∀ e ∈ es, e.length < 2 ^ 64) : openWAL (segment es) = some es := by
  unfold openWAL
  rw [openSegment_segment hes (Nat.le_refl _)]

/-- Full statement: for every list of entries and every partly written entry after them, opening keeps exactly the complete
entries.  It is false: when the damaged tail has as many bytes as the complete part, nothing is cut and opening fails. -/
theorem C15_tail_as_long_as_the_rest_not_cut : ∃ es d e, PartOf d e ∧ (∀ x ∈ e :: es, x.length < 2 ^ 64) ∧
    truncateCorruptedTail (segment es ++ d) = segment es ++ d ∧ openWAL (segment es ++ d) = none := by
  refine ⟨[[170]], [5, 1], [1, 2, 3, 4, 5], ⟨by simp, [2, 3, 4, 5], by simp, ?_⟩, by simp, ?_, ?_⟩
  · unfold encodeBytes; decide +kernel
  · unfold segment encodeBytes; decide +kernel
  · unfold segment encodeBytes; decide +kernel

/-- What holds: in every other case exactly the complete entries are kept.  Missing: a damaged tail exactly as long as the
complete part. -/
theorem C15_tail_cut_partial (es : List (List UInt8)) (d e : List UInt8) (hes : ∀ x ∈ e :: es, x.length < 2 ^ 64)
    (hd : PartOf d e) (hlen : d.length ≠ (segment es).length) :
    truncateCorruptedTail (segment es ++ d) = segment es ∧ openWAL (segment es ++ d) = some es := by
  have hn := loadNext_part (hes e (by simp)) hd
  have hes' : ∀ x ∈ es, x.length < 2 ^ 64 := fun x hx => hes x (by simp [hx])
  have ht : truncateCorruptedTail (segment es ++ d) = segment es := by
    unfold truncateCorruptedTail
    rw [walk_segment hes' (.inr hn) (by rw [List.length_append]; omega)]
    simp only
    rw [if_pos (Ne.symm hlen), List.take_left]
  refine ⟨ht, ?_⟩
  unfold openWAL
  rw [openSegment_damaged hes' hd.1 hn]
  simp only [ht]
  exact openSegment_segment hes' (Nat.le_refl _)

example : PartOf [5, 1, 2] [1, 2, 3, 4, 5] ∧ ([5, 1, 2] : List UInt8).length ≠ (segment [[170]]).length := by
  refine ⟨⟨by simp, [3, 4, 5], by simp, ?_⟩, ?_⟩
  · unfold encodeBytes; decide +kernel
  · unfold segment encodeBytes; decide +kernel

/-- Complete entries are never lost or altered: whatever the bytes after them, what remains after cutting still starts with
all of them. -/
theorem C15_complete_entries_kept (es : List (List UInt8)) (d : List UInt8) (hes : ∀ x ∈ es, x.length < 2 ^ 64) :
    segment es <+: truncateCorruptedTail (segment es ++ d) := by
  have key : ∀ (es : List (List UInt8)), (∀ x ∈ es, x.length < 2 ^ 64) → ∀ fuel, (segment es).length ≤ fuel →
      (segment es).length ≤ (walkEntries fuel (segment es ++ d)).1 := by
    intro es
    induction es with
    | nil => intro _ fuel _; simp [segment]
    | cons e es ih =>
      intro hes fuel hf
      have hp := encodeBytes_length_pos e
      simp only [segment, List.flatMap_cons, List.length_append] at hf ⊢
      cases fuel with
      | zero => omega
      | succ f =>
        have hne : encodeBytes e ++ (List.flatMap encodeBytes es) ++ d ≠ [] := by
          intro h
          have := congrArg List.length h
          simp only [List.length_append, List.length_nil] at this; omega
        simp only [walkEntries]
        rw [if_neg hne, List.append_assoc, loadNext_entry (hes e (by simp))]
        simp only [List.drop_left]
        have := ih (fun e he => hes e (by simp [he])) f (by simp only [segment]; omega)
        simp only [segment] at this
        omega
  unfold truncateCorruptedTail
  have h := key es hes (segment es ++ d).length (by rw [List.length_append]; omega)
  generalize walkEntries (segment es ++ d).length (segment es ++ d) = w at h
  obtain ⟨pos, rest⟩ := w
  simp only at h ⊢
  split
  · rw [List.take_append, List.take_of_length_le h]
    exact List.prefix_append _ _
  · exact List.prefix_append _ _

/-- A tail of zero bytes, as a file system may leave after a crash, is not seen as damage: every zero byte is accepted as an
empty entry. -/
theorem C15_zero_tail_accepted (n : Nat) : openWAL (List.replicate n 0) = some (List.replicate n []) := by
  have h : List.replicate n (0 : UInt8) = segment (List.replicate n []) := by
    induction n with
    | zero => rfl
    | succ n ih =>
      rw [List.replicate_succ, List.replicate_succ, ih]
      simp only [segment, List.flatMap_cons]
      have : encodeBytes [] = [0] := by unfold encodeBytes putUvarint; rfl
      rw [this]; rfl
  rw [h]
  exact C15_undamaged _ (by intro e he; rw [List.eq_of_mem_replicate he]; simp)

end MemIAVL
