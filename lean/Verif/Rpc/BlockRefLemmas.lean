import Verif.Rpc.BlockRefSpec
/-!
# Lemmas about names of blocks
-/

namespace BlockRef

theorem IsDigit.lt {c : Char} {d : Nat} (h : IsDigit c d) : d < 16 := by
  rcases h with h | h
  · exact (List.getElem?_eq_some_iff.1 h).1
  · exact (List.getElem?_eq_some_iff.1 h).1

theorem IsDigit.facts {c : Char} {d : Nat} (h : IsDigit c d) :
    digitVal c = some d ∧ c ≠ '_' ∧ c ≠ '.' ∧ c ≠ '-' ∧ c ≠ '+' ∧ (d < 10 → c.toNat ≤ 57) ∧ (c = '0' → d = 0) := by
  have key : ∀ d : Fin 16, ∀ c ∈ [lowerDigits[d.1]?, upperDigits[d.1]?].filterMap id,
      digitVal c = some d.1 ∧ c ≠ '_' ∧ c ≠ '.' ∧ c ≠ '-' ∧ c ≠ '+' ∧ (d.1 < 10 → c.toNat ≤ 57) ∧
        (c = '0' → d.1 = 0) := by decide +kernel
  apply key ⟨d, h.lt⟩ c
  rw [List.mem_filterMap]
  rcases h with h | h
  · exact ⟨some c, by simp [h], rfl⟩
  · exact ⟨some c, by simp [h], rfl⟩

theorem Spells.len {cs : List Char} {ds : List Nat} (h : Spells cs ds) : cs.length = ds.length := by
  induction h with
  | nil => rfl
  | cons _ _ ih => simp [ih]

theorem Spells.clean {cs : List Char} {ds : List Nat} (h : Spells cs ds) : ∀ c ∈ cs, c ≠ '_' ∧ c ≠ '.' := by
  induction h with
  | nil => intro c hc; cases hc
  | cons hd _ ih =>
    intro c hc
    rcases List.mem_cons.1 hc with rfl | hc
    · exact ⟨hd.facts.2.1, hd.facts.2.2.1⟩
    · exact ih c hc

theorem digits_spells {base : Nat} (hb : 1 ≤ base) (und : Bool) {cs : List Char} {ds : List Nat}
    (h : Spells cs ds) : ∀ {acc : Nat}, acc ≤ maxUint64 → (∀ d ∈ ds, d < base) →
    digits base und acc cs = if maxUint64 < acc * base ^ ds.length + value base ds then none
      else some (acc * base ^ ds.length + value base ds) := by
  induction h with
  | nil =>
    intro acc ha _
    simp only [digits, List.length_nil, Nat.pow_zero, Nat.mul_one, value, Nat.add_zero]
    rw [if_neg (Nat.not_lt.2 ha)]
  | @cons c d cs ds hd hs ih =>
    intro acc ha hlt
    have hf := hd.facts
    have hdb : d < base := hlt d (List.mem_cons_self ..)
    have hpow : 1 ≤ base ^ ds.length := Nat.one_le_pow _ _ hb
    have he : acc * base ^ (d :: ds).length + value base (d :: ds)
        = (acc * base + d) * base ^ ds.length + value base ds := by
      simp only [List.length_cons, value, Nat.pow_succ, Nat.add_mul]
      rw [Nat.mul_comm (base ^ ds.length) base, ← Nat.mul_assoc, Nat.add_assoc]
    unfold digits
    rw [if_neg (by intro hc; exact hf.2.1 hc.2), hf.1, he]
    dsimp only
    rw [if_neg (Nat.not_le.2 hdb)]
    by_cases hbig : maxUint64 < acc * base + d
    · rw [if_pos hbig, if_pos]
      have : acc * base + d ≤ (acc * base + d) * base ^ ds.length := Nat.le_mul_of_pos_right _ hpow
      omega
    · rw [if_neg hbig]
      exact ih (Nat.not_lt.1 hbig) (fun x hx => hlt x (List.mem_cons_of_mem _ hx))

theorem hexDigits_spells {cs : List Char} {ds : List Nat} (h : Spells cs ds) :
    ∀ acc, hexDigits acc cs = some (acc * 16 ^ ds.length + value 16 ds) := by
  induction h with
  | nil => intro acc; simp [hexDigits, value]
  | @cons c d cs ds hd hs ih =>
    intro acc
    unfold hexDigits
    rw [hd.facts.1]
    dsimp only
    rw [if_neg (Nat.not_le.2 hd.lt), ih]
    congr 1
    simp only [List.length_cons, value, Nat.pow_succ, Nat.add_mul]
    rw [Nat.mul_comm (16 ^ ds.length) 16, ← Nat.mul_assoc, Nat.add_assoc]

theorem trimRev_none {f : Bool} {l : List Char} (h : ∀ c ∈ l, c ≠ '.') : trimRev f l = none := by
  induction l generalizing f with
  | nil => rfl
  | cons c cs ih =>
    unfold trimRev
    rw [if_neg (h c (List.mem_cons_self ..))]
    split
    · exact ih (fun x hx => h x (List.mem_cons_of_mem _ hx))
    · rfl

theorem trim_clean {s : List Char} (h : ∀ c ∈ s, c ≠ '.') : trim s = s := by
  unfold trim
  rw [trimRev_none (fun c hc => h c (List.mem_reverse.1 hc))]

theorem trimRev_some {f : Bool} {l r : List Char} (h : trimRev f l = some r) : ∃ p, l = p ++ '.' :: r := by
  induction l generalizing f with
  | nil => simp [trimRev] at h
  | cons c cs ih =>
    unfold trimRev at h
    split at h
    · rename_i hc
      split at h
      · exact ⟨[], by rw [hc]; injection h with h; rw [h]; rfl⟩
      · obtain ⟨p, hp⟩ := ih h
        exact ⟨c :: p, by rw [hp]; rfl⟩
    · split at h
      · obtain ⟨p, hp⟩ := ih h
        exact ⟨c :: p, by rw [hp]; rfl⟩
      · cases h

theorem trim_head {c : Char} {cs : List Char} (h : c ≠ '.') : ∃ cs', trim (c :: cs) = c :: cs' := by
  unfold trim
  split
  · rename_i r hr
    obtain ⟨p, hp⟩ := trimRev_some hr
    have : c :: cs = r.reverse ++ '.' :: p.reverse := by
      have := congrArg List.reverse hp
      simpa using this
    cases hrr : r.reverse with
    | nil =>
      rw [hrr] at this
      injection this with h1 _
      exact absurd h1 h
    | cons d ds =>
      rw [hrr] at this
      injection this with h1 _
      exact ⟨ds, by rw [h1]⟩
  · exact ⟨cs, rfl⟩

theorem not_word_of_head {c : Char} {cs : List Char} (h : c.toNat ≤ 57) : ¬ Word (c :: cs) := by
  rintro (h' | h' | h' | h' | h') <;>
  · injection h' with h1 _
    rw [h1] at h
    exact absurd h (by decide)

theorem number_of_not_word {s : List Char} (h : ¬ Word s) : number s = match decodeUint64 s with
    | .bad => none
    | .missing => if maxInt64 < castUint64 s then none else some (castUint64 s : Int)
    | .ok n => if maxInt64 < n then none else some (n : Int) := by
  have h1 : ¬ (s = latest ∨ s = finalized ∨ s = safe) := by
    rintro (e | e | e)
    · exact h (Or.inr (Or.inl e))
    · exact h (Or.inr (Or.inr (Or.inl e)))
    · exact h (Or.inr (Or.inr (Or.inr (Or.inl e))))
  have h2 : s ≠ pending := fun e => h (Or.inr (Or.inr (Or.inr (Or.inr e))))
  unfold number
  rw [if_neg (fun e => h (Or.inl e)), if_neg h1, if_neg h2]
  cases decodeUint64 s <;> rfl

theorem castUint64_le (s : List Char) : castUint64 s ≤ maxInt64 := by
  unfold castUint64
  cases h : parseInt0 (trim s) with
  | none => exact Nat.zero_le _
  | some i =>
    dsimp only
    split
    · exact Nat.zero_le _
    · rename_i hi
      unfold parseInt0 at h
      split at h
      · cases h
      · split at h
        · split at h
          · cases h
          · split at h
            · cases h
            · injection h with h
              have : i ≤ 0 := by omega
              have : i.toNat = 0 := by omega
              rw [this]
              exact Nat.zero_le _
        · split at h
          · cases h
          · split at h
            · cases h
            · injection h with h
              omega

theorem decode_missing_iff {s : List Char} : decodeUint64 s = .missing ↔ s ≠ [] ∧ has0x s = false := by
  unfold decodeUint64
  by_cases h1 : s = []
  · rw [if_pos h1]
    exact ⟨fun h => (by cases h), fun h => absurd h1 h.1⟩
  · rw [if_neg h1]
    by_cases h2 : has0x s = false
    · rw [if_pos h2]
      exact ⟨fun _ => ⟨h1, h2⟩, fun _ => rfl⟩
    · rw [if_neg h2]
      refine ⟨fun h => ?_, fun h => absurd h.2 h2⟩
      split at h
      · cases h
      · split at h
        · cases h
        · split at h
          · cases h
          · cases h

theorem decode_hex {x : Char} (hx : x = 'x' ∨ x = 'X') {cs : List Char} {ds : List Nat} (h : Spells cs ds)
    (hp : Proper 16 ds) :
    decodeUint64 ('0' :: x :: cs) = if maxUint64 < value 16 ds then .bad else .ok (value 16 ds) := by
  have h0 : has0x ('0' :: x :: cs) = true := by
    rcases hx with rfl | rfl <;> rfl
  unfold decodeUint64
  rw [if_neg (by intro e; cases e), if_neg (by rw [h0]; intro e; cases e)]
  have hdrop : List.drop 2 ('0' :: x :: cs) = cs := rfl
  rw [hdrop]
  have hd := digits_spells (base := 16) (by decide) false h (Nat.zero_le maxUint64) hp.2.1
  rw [Nat.zero_mul, Nat.zero_add] at hd
  cases h with
  | nil => exact absurd rfl hp.1
  | @cons c d cs ds hc hs =>
    dsimp only
    rw [if_neg, hd]
    · by_cases hb : maxUint64 < value 16 (d :: ds)
      · rw [if_pos hb, if_pos hb]
      · rw [if_neg hb, if_neg hb]
    · rintro ⟨h1, h2⟩
      have hd0 := hc.facts.2.2.2.2.2.2 h1
      have := hp.2.2 (by rw [hd0]; rfl)
      injection this with _ hnil
      rw [hnil] at hs
      cases hs
      exact h2 rfl

theorem Word.head {c : Char} {cs : List Char} (h : c ∉ ['e', 'l', 'f', 's', 'p']) : ¬ Word (c :: cs) := by
  rintro (h' | h' | h' | h' | h') <;>
  · injection h' with h1 _
    rw [h1] at h
    exact h (by decide)

theorem word_no_prefix {s : List Char} (h : Word s) : has0x s = false ∧ s ≠ [] ∧ s.length ≠ 66 := by
  rcases h with h | h | h | h | h <;> rw [h] <;> decide

/-- The largest number a text with a prefix of `n` digits, the first not zero, is at least. -/
theorem value_ge {d : Nat} {ds : List Nat} (hd : d ≠ 0) : 16 ^ ds.length ≤ value 16 (d :: ds) := by
  unfold value
  have : 1 * 16 ^ ds.length ≤ d * 16 ^ ds.length := Nat.mul_le_mul_right _ (by omega)
  omega

/-- A digit of base 16 is read only from a digit. -/
theorem isDigit_of_val {c : Char} {d : Nat} (h : digitVal c = some d) (hd : d < 16) : IsDigit c d := by
  unfold digitVal at h
  have key : ∀ n : Fin 128, ∀ d : Fin 16, digitVal (Char.ofNat n.1) = some d.1 →
      lowerDigits[d.1]? = some (Char.ofNat n.1) ∨ upperDigits[d.1]? = some (Char.ofNat n.1) := by decide +kernel
  have hlt : c.toNat < 128 := by
    split at h
    · omega
    · split at h
      · omega
      · split at h
        · omega
        · cases h
  have hc : Char.ofNat c.toNat = c := Char.ofNat_toNat c
  have := key ⟨c.toNat, hlt⟩ ⟨d, hd⟩ (by
    dsimp only
    rw [hc]
    exact h)
  dsimp only at this
  rw [hc] at this
  exact this

theorem spells_of_digits {und : Bool} {cs : List Char} (hu : und = false) : ∀ {acc n : Nat},
    digits 16 und acc cs = some n → ∃ ds, Spells cs ds := by
  induction cs with
  | nil => intro acc n _; exact ⟨[], .nil⟩
  | cons c cs ih =>
    intro acc n h
    unfold digits at h
    rw [if_neg (by rw [hu]; intro hc; cases hc.1)] at h
    split at h
    · cases h
    · rename_i d hd
      split at h
      · cases h
      · split at h
        · cases h
        · rename_i h1 _
          obtain ⟨ds, hds⟩ := ih h
          exact ⟨d :: ds, .cons (isDigit_of_val hd (Nat.not_le.1 h1)) hds⟩

end BlockRef
