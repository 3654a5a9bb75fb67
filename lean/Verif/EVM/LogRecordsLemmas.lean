import Verif.EVM.LogRecordsSpec
/-!
# Lemmas on records of logs
-/

namespace LogRecords

theorem val_digit {n : Nat} (h : n < 16) : val (digit n) = some n := by
  revert n
  decide

theorem val_capital {n : Nat} (h : n < 16) : val (capital n) = some n := by
  revert n
  decide

theorem nibbles_lt {b : List Nat} (hb : ∀ x ∈ b, x < 256) : ∀ n ∈ nibbles b, n < 16 := by
  intro n hn
  unfold nibbles at hn
  rw [List.mem_flatMap] at hn
  obtain ⟨x, hx, hn⟩ := hn
  have := hb x hx
  simp only [List.mem_cons, List.not_mem_nil, or_false] at hn
  omega

theorem nibbles_length (b : List Nat) : (nibbles b).length = 2 * b.length := by
  induction b with
  | nil => rfl
  | cons x b ih =>
    have : nibbles (x :: b) = x / 16 :: x % 16 :: nibbles b := rfl
    rw [this, List.length_cons, List.length_cons, ih, List.length_cons]
    omega

theorem digits_val {ns : List Nat} (h : ∀ n ∈ ns, n < 16) : (ns.map digit).map val = ns.map some := by
  rw [List.map_map]
  exact List.map_congr_left fun n hn => val_digit (h n hn)

theorem spell_val (up : Nat → Bool) (i : Nat) {ns : List Nat} (h : ∀ n ∈ ns, n < 16) :
    (spell up i ns).map val = ns.map some := by
  induction ns generalizing i with
  | nil => rfl
  | cons n ns ih =>
    unfold spell
    rw [List.map_cons, List.map_cons, ih _ (fun m hm => h m (List.mem_cons_of_mem _ hm))]
    have hn := h n List.mem_cons_self
    split
    · rw [val_capital hn]
    · rw [val_digit hn]

theorem decode_of_val {b cs : List Nat} (h : cs.map val = (nibbles b).map some) : decode cs = b := by
  induction b generalizing cs with
  | nil =>
    have : cs = [] := List.map_eq_nil_iff.1 h
    subst this
    rfl
  | cons x b ih =>
    have e : nibbles (x :: b) = x / 16 :: x % 16 :: nibbles b := rfl
    rw [e] at h
    match cs, h with
    | [], h => cases h
    | [_], h =>
      injection h with _ h
      cases h
    | c :: d :: cs, h =>
      simp only [List.map_cons] at h
      injection h with h1 h
      injection h with h2 h
      unfold decode
      rw [h1, h2]
      dsimp only
      rw [ih h]
      congr 1
      omega

theorem fromHex_of_val {b cs : List Nat} (h : cs.map val = (nibbles b).map some) : fromHex (48 :: 120 :: cs) = b := by
  unfold fromHex
  have hs : strip (48 :: 120 :: cs) = cs := rfl
  have hl : cs.length = 2 * b.length := by
    have := congrArg List.length h
    rw [List.length_map, List.length_map, nibbles_length] at this
    exact this
  rw [hs, if_neg (by omega), decode_of_val h]

theorem fit_exact {n : Nat} {b : List Nat} (h : b.length = n) : fit n b = b := by
  unfold fit
  rw [if_neg (by omega), h, Nat.sub_self]
  rfl

theorem zero_iff {n : Nat} {b : List Nat} (h : b.length = n) : b = List.replicate n 0 ↔ ¬ NonZero b := by
  unfold NonZero
  rw [List.eq_replicate_iff]
  constructor
  · rintro ⟨_, h2⟩ ⟨x, hx, hn⟩
    exact hn (h2 x hx)
  · intro h2
    refine ⟨h, fun x hx => ?_⟩
    exact Classical.byContradiction fun hn => h2 ⟨x, hx, hn⟩

end LogRecords
