import Verif.Rpc.BlockRefLemmas
/-!
# Properties of naming blocks (C111)

The property: a number or hash stands for the block of this number or hash, a word for the block the Ethereum
interface documents, in every request alike; and what names no block is refused. The first half is proved with
two exceptions, 0 and the word `safe`; the second is false of `BlockNumber`: every text that does not begin
with `0x` is read as some number, mistyped words as the first block.
-/

namespace BlockRef

/-- **Hexadecimal numbers** are read as their value, if it fits into 63 bits, and refused otherwise. -/
theorem hex_number {x : Char} (hx : x = 'x' ∨ x = 'X') {cs : List Char} {ds : List Nat} (h : Spells cs ds)
    (hp : Proper 16 ds) :
    number ('0' :: x :: cs) = if value 16 ds < 9223372036854775808 then some (value 16 ds : Int) else none := by
  rw [number_of_not_word (not_word_of_head (by decide)), decode_hex hx h hp]
  by_cases h1 : maxUint64 < value 16 ds
  · rw [if_pos h1]
    dsimp only
    rw [if_neg (by unfold maxUint64 at h1; omega)]
  · rw [if_neg h1]
    dsimp only
    by_cases h2 : maxInt64 < value 16 ds
    · rw [if_pos h2, if_neg (by unfold maxInt64 at h2; omega)]
    · rw [if_neg h2, if_pos (by unfold maxInt64 at h2; omega)]

/-- Numbers with a leading zero after the prefix, and the prefix alone, are refused. -/
theorem hex_leading_zero {x : Char} (hx : x = 'x' ∨ x = 'X') :
    number ['0', x] = none ∧ ∀ c cs, number ('0' :: x :: '0' :: c :: cs) = none := by
  refine ⟨by rcases hx with rfl | rfl <;> decide +kernel, fun c cs => ?_⟩
  rw [number_of_not_word (not_word_of_head (by decide))]
  have : decodeUint64 ('0' :: x :: '0' :: c :: cs) = .bad := by
    have h0 : has0x ('0' :: x :: '0' :: c :: cs) = true := by rcases hx with rfl | rfl <;> rfl
    unfold decodeUint64
    rw [if_neg (by intro e; cases e), if_neg (by rw [h0]; intro e; cases e)]
    have hd : List.drop 2 ('0' :: x :: '0' :: c :: cs) = '0' :: c :: cs := rfl
    rw [hd]
    dsimp only
    rw [if_pos ⟨rfl, by intro e; cases e⟩]
  rw [this]

/-- **Decimal numbers** are read as their value as well, if it fits into 63 bits. If not, they are not refused
but read as 0. -/
theorem decimal_number {cs : List Char} {ds : List Nat} (h : Spells cs ds) (hp : Proper 10 ds) :
    number cs = if value 10 ds < 9223372036854775808 then some (value 10 ds : Int) else some 0 := by
  have hclean := h.clean
  have hdig : ∀ und, digits 10 und 0 cs = if maxUint64 < value 10 ds then none else some (value 10 ds) := by
    intro und
    have := digits_spells (base := 10) (by decide) und h (Nat.zero_le maxUint64) hp.2.1
    rwa [Nat.zero_mul, Nat.zero_add] at this
  cases h with
  | nil => exact absurd rfl hp.1
  | @cons c d cs ds hc hs =>
    have hd10 : d < 10 := hp.2.1 d (List.mem_cons_self ..)
    have hcf := hc.facts
    have hmiss : decodeUint64 (c :: cs) = .missing := by
      rw [decode_missing_iff]
      refine ⟨(by intro e; cases e), ?_⟩
      by_cases hc0 : c = '0'
      · have hd0 := hcf.2.2.2.2.2.2 hc0
        have := hp.2.2 (by rw [hd0]; rfl)
        injection this with _ hnil
        rw [hnil] at hs
        cases hs
        rfl
      · cases cs with
        | nil => rfl
        | cons e es => simp [has0x, hc0]
    rw [number_of_not_word (not_word_of_head (hcf.2.2.2.2.2.1 hd10)), hmiss]
    dsimp only
    rw [if_neg (Nat.not_lt.2 (castUint64_le _))]
    have hcast : castUint64 (c :: cs) = if value 10 (d :: ds) < 9223372036854775808 then value 10 (d :: ds) else 0 := by
      unfold castUint64
      rw [trim_clean (fun x hx => (hclean x hx).2)]
      have hpu : parseUint0 (c :: cs) = if maxUint64 < value 10 (d :: ds) then none else some (value 10 (d :: ds)) := by
        unfold parseUint0
        dsimp only
        by_cases hc0 : c = '0'
        · have hd0 := hcf.2.2.2.2.2.2 hc0
          have := hp.2.2 (by rw [hd0]; rfl)
          injection this with _ hnil
          rw [hnil] at hs
          cases hs
          rw [if_pos hc0, hd0, hnil]
          rfl
        · rw [if_neg hc0, hdig true]
          by_cases hb : maxUint64 < value 10 (d :: ds)
          · rw [if_pos hb]
          · rw [if_neg hb]
            dsimp only
            rw [if_neg]
            rintro ⟨hm, _⟩
            exact (hclean _ hm).1 rfl
      unfold parseInt0
      dsimp only
      rw [if_neg hcf.2.2.2.1, if_neg hcf.2.2.2.2.1, hpu]
      by_cases h1 : maxUint64 < value 10 (d :: ds)
      · rw [if_pos h1, if_neg (by unfold maxUint64 at h1; omega)]
      · rw [if_neg h1]
        dsimp only
        by_cases h2 : maxInt64 < value 10 (d :: ds)
        · rw [if_pos h2, if_neg (by unfold maxInt64 at h2; omega)]
        · rw [if_neg h2, if_pos (by unfold maxInt64 at h2; omega)]
          dsimp only
          rw [if_neg (by omega)]
          omega
    rw [hcast]
    split <;> rfl

/-- **Every number has a name**, in both bases. -/
theorem every_number_has_a_name {base : Nat} (h2 : 2 ≤ base) (h16 : base ≤ 16) (n : Nat) :
    ∃ cs ds, Spells cs ds ∧ Proper base ds ∧ value base ds = n := by
  have key : ∀ n : Nat, ∃ ds : List Nat, Proper base ds ∧ value base ds = n := by
    intro n
    induction n using Nat.strongRecOn with
    | _ n ih =>
      by_cases hn : n < base
      · refine ⟨[n], ⟨(by intro e; cases e), ?_, ?_⟩, by simp [value]⟩
        · intro d hd
          rw [List.mem_singleton.1 hd]; exact hn
        · intro h
          injection h with h
          rw [h]
      · have hq : n / base < n := Nat.div_lt_self (by omega) h2
        have hq0 : 0 < n / base := Nat.div_pos (by omega) (by omega)
        obtain ⟨ds, hp, hv⟩ := ih _ hq
        have happ : ∀ l : List Nat, ∀ r, value base (l ++ [r]) = value base l * base + r := by
          intro l r
          induction l with
          | nil => simp [value]
          | cons a l ihl =>
            simp only [List.cons_append, value, ihl, List.length_append, List.length_singleton, Nat.pow_succ,
              Nat.add_mul]
            rw [Nat.mul_assoc, Nat.add_assoc]
        refine ⟨ds ++ [n % base], ⟨by simp, ?_, ?_⟩, ?_⟩
        · intro d hd
          rcases List.mem_append.1 hd with hd | hd
          · exact hp.2.1 d hd
          · rw [List.mem_singleton.1 hd]; exact Nat.mod_lt _ (by omega)
        · intro h
          cases ds with
          | nil => exact absurd rfl hp.1
          | cons a l =>
            have h0 : a = 0 := by simpa using h
            have := hp.2.2 (by rw [h0]; rfl)
            rw [this] at hv
            simp [value] at hv
            omega
        · rw [happ, hv]
          exact Nat.div_add_mod' n base
  obtain ⟨ds, hp, hv⟩ := key n
  have hsp : ∀ ds : List Nat, (∀ d ∈ ds, d < base) → ∃ cs, Spells cs ds := by
    intro ds
    induction ds with
    | nil => intro _; exact ⟨[], .nil⟩
    | cons d ds ih =>
      intro h
      obtain ⟨cs, hcs⟩ := ih (fun x hx => h x (List.mem_cons_of_mem _ hx))
      have hlt : d < lowerDigits.length := by
        have := h d (List.mem_cons_self ..)
        have h16' : lowerDigits.length = 16 := rfl
        omega
      exact ⟨lowerDigits[d] :: cs, .cons (Or.inl (List.getElem?_eq_getElem hlt)) hcs⟩
  obtain ⟨cs, hcs⟩ := hsp ds hp.2.1
  exact ⟨cs, ds, hcs, hp, hv⟩

/-- **The words** stand for the first block, the newest, and the one under way. -/
theorem words : number earliest = some 0 ∧ number latest = some (-1) ∧ number finalized = some (-1) ∧
    number safe = some (-1) ∧ number pending = some (-2) ∧
    refText earliest = some (.number 0) ∧ refText latest = some (.number (-1)) ∧
    refText finalized = some (.number (-1)) ∧ refText pending = some (.number (-2)) := by decide +kernel

/-- **The word `safe` is refused** where a hash may stand as well. -/
theorem safe_refused : number safe = some (-1) ∧ refText safe = none := by decide +kernel

/-- Quotes around a name do not matter. -/
theorem quotes (s : List Char) : unmarshalNumber ('"' :: (s ++ ['"'])) = number s := by
  unfold unmarshalNumber unquote
  rw [if_pos]
  · rw [List.tail_cons, List.dropLast_concat]
  · refine ⟨by simp, rfl, ?_⟩
    rw [← List.cons_append, List.getLast?_concat]

/-- **Nothing without the prefix is refused**: every text that is not empty and does not begin with `0x` is
read as a number. -/
theorem no_prefix_accepted {s : List Char} (h : s ≠ []) (h0 : has0x s = false) :
    ∃ n : Int, number s = some n ∧ n ≤ 9223372036854775807 := by
  by_cases hw : Word s
  · rcases hw with e | e | e | e | e <;> rw [e]
    · exact ⟨0, words.1, by decide⟩
    · exact ⟨-1, words.2.1, by decide⟩
    · exact ⟨-1, words.2.2.1, by decide⟩
    · exact ⟨-1, words.2.2.2.1, by decide⟩
    · exact ⟨-2, words.2.2.2.2.1, by decide⟩
  · rw [number_of_not_word hw, decode_missing_iff.2 ⟨h, h0⟩]
    dsimp only
    rw [if_neg (Nat.not_lt.2 (castUint64_le s))]
    refine ⟨_, rfl, ?_⟩
    have := castUint64_le s
    unfold maxInt64 at this
    omega

/-- **Mistyped words stand for the first block**: whatever begins with a letter and is none of the five words
is read as 0. -/
theorem mistyped_is_earliest {c : Char} {cs : List Char} (hc : Letter c) (hw : ¬ Word (c :: cs)) :
    number (c :: cs) = some 0 := by
  have hne : ∀ k : Nat, k < 65 → c ≠ Char.ofNat k := by
    intro k hk e
    have hk' : (Char.ofNat k).toNat = k := by
      have : ∀ k : Fin 65, (Char.ofNat k.1).toNat = k.1 := by decide +kernel
      exact this ⟨k, hk⟩
    rw [e] at hc
    unfold Letter at hc
    rw [hk'] at hc
    omega
  have h0 : c ≠ '0' := hne 48 (by decide)
  have hdot : c ≠ '.' := hne 46 (by decide)
  have hminus : c ≠ '-' := hne 45 (by decide)
  have hplus : c ≠ '+' := hne 43 (by decide)
  have hund : c ≠ '_' := by
    intro e
    rw [e] at hc
    exact absurd hc (by unfold Letter; decide)
  have hval : ∃ d, digitVal c = some d ∧ 10 ≤ d := by
    unfold digitVal
    rcases hc with hc | hc
    · rw [if_neg (by omega), if_pos hc]
      exact ⟨_, rfl, by omega⟩
    · rw [if_neg (by omega), if_neg (by omega), if_pos hc]
      exact ⟨_, rfl, by omega⟩
  obtain ⟨d, hd, h10⟩ := hval
  have hmiss : decodeUint64 (c :: cs) = .missing := by
    rw [decode_missing_iff]
    refine ⟨(by intro e; cases e), ?_⟩
    cases cs with
    | nil => rfl
    | cons e es => simp [has0x, h0]
  obtain ⟨cs', ht⟩ := trim_head (cs := cs) hdot
  have hpu : parseUint0 (c :: cs') = none := by
    unfold parseUint0
    dsimp only
    rw [if_neg h0]
    unfold digits
    rw [if_neg (fun h => hund h.2), hd]
    dsimp only
    rw [if_pos h10]
  have hcast : castUint64 (c :: cs) = 0 := by
    unfold castUint64
    rw [ht]
    unfold parseInt0
    dsimp only
    rw [if_neg hminus, if_neg hplus, hpu]
  rw [number_of_not_word hw, hmiss, hcast]
  rfl

/-- Some names one would not expect: `latets` and `-5` are the first block, `010` is block 8, `1_0` is block
10, `0b11` block 3, `7.00` block 7, and `null` the first block. -/
theorem odd_names : number ['l','a','t','e','t','s'] = some 0 ∧ number ['-','5'] = some 0 ∧
    number ['0','1','0'] = some 8 ∧ number ['1','_','0'] = some 10 ∧ number ['0','b','1','1'] = some 3 ∧
    number ['7','.','0','0'] = some 7 ∧ unmarshalNumber ['n','u','l','l'] = some 0 ∧
    number ['1','_'] = some 0 ∧ number ['+','0','X','f'] = some 15 ∧ number ['1','_','_','0'] = some 0 := by
  decide +kernel

/-- **Where a hash may stand, texts without prefix are refused** unless they are one of four words. -/
theorem ref_refuses {s : List Char} (hw : ¬ Word s) (h0 : has0x s = false) : refText s = none := by
  unfold refText
  rw [if_neg (fun e => hw (Or.inl e)), if_neg, if_neg (fun e => hw (Or.inr (Or.inr (Or.inr (Or.inr e)))))]
  · split
    · unfold parseHash
      rw [if_neg (by rw [h0]; intro h; cases h.1)]
      rfl
    · by_cases hs : s = []
      · rw [hs]; rfl
      · rw [decode_missing_iff.2 ⟨hs, h0⟩]
  · rintro (e | e)
    · exact hw (Or.inr (Or.inl e))
    · exact hw (Or.inr (Or.inr (Or.inl e)))

/-- **All requests agree**: a text read as a number where a hash may stand is read as the same number where
only a number may. -/
theorem requests_agree {s : List Char} {n : Int} (h : refText s = some (.number n)) : number s = some n := by
  unfold refText at h
  split at h
  · rename_i e
    injection h with h; injection h with h
    rw [e, ← h]; exact words.1
  · rename_i h1
    split at h
    · rename_i e
      injection h with h; injection h with h
      rw [← h]
      rcases e with e | e <;> rw [e]
      · exact words.2.1
      · exact words.2.2.1
    · rename_i h2
      split at h
      · rename_i e
        injection h with h; injection h with h
        rw [e, ← h]; exact words.2.2.2.2.1
      · rename_i h3
        split at h
        · cases hp : parseHash s with
          | none => rw [hp] at h; cases h
          | some v => rw [hp] at h; cases h
        · have hw : ¬ Word s := by
            rintro (e | e | e | e | e)
            · exact h1 e
            · exact h2 (Or.inl e)
            · exact h2 (Or.inr e)
            · rw [e] at h
              exact absurd h (by
                have : decodeUint64 safe = .missing := by decide +kernel
                rw [this]
                intro hc
                cases hc)
            · exact h3 e
          rw [number_of_not_word hw]
          cases hd : decodeUint64 s with
          | ok m =>
            rw [hd] at h
            dsimp only at h ⊢
            split at h
            · cases h
            · rename_i hm
              rw [if_neg hm]
              injection h with h; injection h with h
              rw [h]
          | missing => rw [hd] at h; cases h
          | bad => rw [hd] at h; cases h

/-- And conversely for texts with the prefix. -/
theorem prefixed_agree {x : Char} (hx : x = 'x' ∨ x = 'X') {cs : List Char} {ds : List Nat} (h : Spells cs ds)
    (hp : Proper 16 ds) (hlt : value 16 ds < 9223372036854775808) :
    refText ('0' :: x :: cs) = some (.number (value 16 ds)) := by
  have hw : ¬ Word ('0' :: x :: cs) := not_word_of_head (by decide)
  unfold refText
  rw [if_neg (fun e => hw (Or.inl e)), if_neg, if_neg (fun e => hw (Or.inr (Or.inr (Or.inr (Or.inr e))))),
    if_neg, decode_hex hx h hp, if_neg (by unfold maxUint64; omega)]
  · dsimp only
    rw [if_neg (by unfold maxInt64; omega)]
  · intro hlen
    have hl : ds.length = 64 := by
      have := h.len
      simp only [List.length_cons] at hlen
      omega
    cases ds with
    | nil => cases hl
    | cons d ds =>
      by_cases hd : d = 0
      · have := hp.2.2 (by rw [hd]; rfl)
        rw [this] at hl
        cases hl
      · have h1 := value_ge (ds := ds) hd
        have h2 : ds.length = 63 := by simpa using hl
        rw [h2] at h1
        have h3 : 9223372036854775808 ≤ 16 ^ 63 := by decide +kernel
        omega
  · rintro (e | e)
    · exact hw (Or.inr (Or.inl e))
    · exact hw (Or.inr (Or.inr (Or.inl e)))

/-- **Hashes** are read as what their 64 digits stand for, small and large letters alike. -/
theorem hash_read {x : Char} (hx : x = 'x' ∨ x = 'X') {cs : List Char} {ds : List Nat} (h : Spells cs ds)
    (hl : ds.length = 64) :
    refText ('0' :: x :: cs) = some (.hash (value 16 ds)) ∧
    refParam (.object none (some ('0' :: x :: cs))) = some (.hash (value 16 ds)) := by
  have h0 : has0x ('0' :: x :: cs) = true := by rcases hx with rfl | rfl <;> rfl
  have hlen : ('0' :: x :: cs).length = 66 := by
    have := h.len
    simp only [List.length_cons]
    omega
  have hph : parseHash ('0' :: x :: cs) = some (value 16 ds) := by
    unfold parseHash
    rw [if_pos ⟨h0, hlen⟩]
    have hd : List.drop 2 ('0' :: x :: cs) = cs := rfl
    rw [hd, hexDigits_spells h, Nat.zero_mul, Nat.zero_add]
  have hw : ¬ Word ('0' :: x :: cs) := not_word_of_head (by decide)
  constructor
  · unfold refText
    rw [if_neg (fun e => hw (Or.inl e)), if_neg, if_neg (fun e => hw (Or.inr (Or.inr (Or.inr (Or.inr e))))),
      if_pos hlen, hph]
    · rfl
    · rintro (e | e)
      · exact hw (Or.inr (Or.inl e))
      · exact hw (Or.inr (Or.inr (Or.inl e)))
  · unfold refParam
    dsimp only
    rw [hph]
    rfl

/-- An object names a number or a hash: with both it is refused, with none it names nothing. -/
theorem object_names_one (d h : List Char) : refParam (.object (some d) (some h)) = none ∧
    refParam (.object (some d) none) = (unmarshalNumber d).map .number ∧
    refParam (.object none none) = some .neither ∧ refParam .null = some .neither ∧ refParam .other = none ∧
    ∀ c, find c .neither = .fails := ⟨rfl, rfl, rfl, rfl, rfl, fun _ => rfl⟩

/-- **Which block a number finds**: its own; 0 finds block 1, negative numbers (the words) the newest. -/
theorem found_by_number {c : Chain} {n : Int} {h : Nat} :
    find c (.number n) = .block h ↔
      Has c h ∧ ((1 ≤ n ∧ (h : Int) = n) ∨ (n = 0 ∧ h = 1) ∨ (n < 0 ∧ h = c.top)) := by
  have hb : byNumber c n = some h ↔
      Has c h ∧ ((1 ≤ n ∧ (h : Int) = n) ∨ (n = 0 ∧ h = 1) ∨ (n < 0 ∧ h = c.top)) := by
    have key : ∀ t : Int, 0 ≤ t →
        ((if (c.base : Int) ≤ t ∧ t ≤ c.top then some t.toNat else none) = some h ↔ Has c h ∧ (h : Int) = t) := by
      intro t ht
      unfold Has
      split
      · rename_i hr
        rw [Option.some.injEq]
        exact ⟨fun e => (by omega), fun e => (by omega)⟩
      · rename_i hr
        exact ⟨fun e => (by cases e), fun e => absurd (by omega) hr⟩
    unfold byNumber
    dsimp only
    rcases Int.lt_trichotomy n 0 with hn | hn | hn
    · have hi : int64 n = 0 := by unfold int64; rw [if_pos hn]
      rw [hi, if_pos (Int.le_refl 0), key _ (by omega)]
      unfold Has
      omega
    · have hi : int64 n = 1 := by unfold int64; rw [if_neg (by omega), if_pos hn]
      rw [hi, if_neg (show ¬ (1 : Int) ≤ 0 by decide), key _ (by decide)]
      unfold Has
      omega
    · have hi : int64 n = n := by unfold int64; rw [if_neg (by omega), if_neg (by omega)]
      rw [hi, if_neg (show ¬ n ≤ 0 by omega), key _ (by omega)]
      unfold Has
      omega
  rw [← hb]
  unfold find
  dsimp only
  cases byNumber c n with
  | none => exact ⟨fun e => (by cases e), fun e => (by cases e)⟩
  | some k =>
    dsimp only
    rw [Option.some.injEq]
    exact ⟨fun e => (by injection e), fun e => (by rw [e])⟩

/-- **The full property for numbers**, partial: whoever asks for the block with a number from 1 on by its
hexadecimal name gets this block or, if the node does not have it, an error. Missing: block 0, for which the
node answers with block 1. -/
theorem right_block_partial {x : Char} (hx : x = 'x' ∨ x = 'X') {cs : List Char} {ds : List Nat}
    (h : Spells cs ds) (hp : Proper 16 ds) (hlt : value 16 ds < 9223372036854775808) (h1 : 1 ≤ value 16 ds)
    (c : Chain) :
    ∃ n, number ('0' :: x :: cs) = some n ∧ refText ('0' :: x :: cs) = some (.number n) ∧
      (Has c (value 16 ds) → find c (.number n) = .block (value 16 ds)) ∧
      (¬ Has c (value 16 ds) → find c (.number n) = .fails) := by
  refine ⟨value 16 ds, by rw [hex_number hx h hp, if_pos hlt], prefixed_agree hx h hp hlt, ?_, ?_⟩
  · intro hh
    exact found_by_number.2 ⟨hh, Or.inl ⟨by omega, rfl⟩⟩
  · intro hh
    cases hf : find c (.number (value 16 ds)) with
    | fails => rfl
    | crashes =>
      unfold find at hf
      dsimp only at hf
      split at hf <;> cases hf
    | block k =>
      have hk := found_by_number.1 hf
      have : k = value 16 ds := by omega
      rw [this] at hk
      exact absurd hk.1 hh

/-- Block 0 does not exist, yet asking for it finds block 1. -/
theorem zero_is_one (c : Chain) (h : Has c 1) : number ['0','x','0'] = some 0 ∧ find c (.number 0) = .block 1 :=
  ⟨by decide +kernel, found_by_number.2 ⟨h, Or.inr (Or.inl ⟨rfl, rfl⟩)⟩⟩

/-- **Which block a hash finds**: the one with this hash, if the hashes of the node's blocks differ and its
heights are from 1 on and fit into 63 bits. -/
theorem found_by_hash {c : Chain} (hpos : 1 ≤ c.base) (htop : c.top ≤ 9223372036854775807)
    (hinj : ∀ a b, Has c a → Has c b → c.hash a = c.hash b → a = b) {x h : Nat} :
    find c (.hash x) = .block h ↔ Has c h ∧ c.hash h = x := by
  have hmem : ∀ k, k ∈ List.range' c.base (c.top + 1 - c.base) ↔ Has c k := by
    intro k
    rw [List.mem_range'_1]
    unfold Has
    omega
  have hnum : ∀ k, Has c k → find c (.number (newBlockNumber k)) = .block k := by
    intro k hk
    have : newBlockNumber k = (k : Int) := by
      unfold newBlockNumber
      rw [if_neg]
      have := hk.2
      unfold maxInt64
      omega
    rw [this]
    exact found_by_number.2 ⟨hk, Or.inl ⟨by have := hk.1; omega, rfl⟩⟩
  have hfind : ∀ k, headerByHash c x = some k → find c (.hash x) = find c (.number (newBlockNumber k)) := by
    intro k hk
    unfold find
    dsimp only
    rw [hk]
  cases hf : headerByHash c x with
  | none =>
    constructor
    · intro e
      unfold find at e
      dsimp only at e
      rw [hf] at e
      cases e
    · rintro ⟨hh, he⟩
      unfold headerByHash at hf
      have := List.find?_eq_none.1 hf h ((hmem h).2 hh)
      exact absurd he (by simpa using this)
  | some k =>
    have hk : Has c k ∧ c.hash k = x := by
      unfold headerByHash at hf
      exact ⟨(hmem k).1 (List.mem_of_find?_eq_some hf), by simpa using List.find?_some hf⟩
    rw [hfind k hf, hnum k hk.1]
    constructor
    · intro e
      injection e with e
      rw [← e]; exact hk
    · rintro ⟨hh, he⟩
      rw [hinj k h hk.1 hh (hk.2.trans he.symm)]

/-- **Unknown hashes crash the request**: it ends with a nil-pointer dereference, exactly then. -/
theorem crashes_iff {c : Chain} {r : Ref} :
    find c r = .crashes ↔ ∃ x, r = .hash x ∧ ∀ h, Has c h → c.hash h ≠ x := by
  cases r with
  | neither => exact ⟨fun e => (by cases e), fun ⟨_, e, _⟩ => (by cases e)⟩
  | number n =>
    refine ⟨fun e => ?_, fun ⟨_, e, _⟩ => (by cases e)⟩
    unfold find at e
    dsimp only at e
    split at e <;> cases e
  | hash x =>
    have hmem : ∀ k, k ∈ List.range' c.base (c.top + 1 - c.base) ↔ Has c k := by
      intro k
      rw [List.mem_range'_1]
      unfold Has
      omega
    unfold find
    dsimp only
    cases hf : headerByHash c x with
    | none =>
      refine ⟨fun _ => ⟨x, rfl, fun h hh => ?_⟩, fun _ => rfl⟩
      unfold headerByHash at hf
      have := List.find?_eq_none.1 hf h ((hmem h).2 hh)
      simpa using this
    | some k =>
      dsimp only
      refine ⟨fun e => ?_, fun ⟨y, e, hy⟩ => ?_⟩
      · split at e <;> cases e
      · injection e with e
        unfold headerByHash at hf
        have hk := (hmem k).1 (List.mem_of_find?_eq_some hf)
        have hx : c.hash k = x := by simpa using List.find?_some hf
        exact absurd (hx.trans e) (hy k hk)

/-! ## The hypotheses are met -/

/-- A node with blocks 5 to 9. -/
def demo : Chain := { base := 5, top := 9, hash := fun h => 1000 + h }

/-- `0x1F` spells the digits 1 and 15. -/
example : Spells ['1', 'F'] [1, 15] ∧ Proper 16 [1, 15] ∧ value 16 [1, 15] = 31 ∧
    number ['0', 'x', '1', 'F'] = some 31 := by
  refine ⟨.cons (Or.inl rfl) (.cons (Or.inr rfl) .nil), ⟨by decide, by decide, by decide⟩, by decide, by decide +kernel⟩

/-- Decimals beyond 63 bits. -/
example : number ['9','2','2','3','3','7','2','0','3','6','8','5','4','7','7','5','8','0','8'] = some 0 := by
  decide +kernel

example : find demo (.number 7) = .block 7 ∧ find demo (.number 3) = .fails ∧ find demo (.number (-1)) = .block 9 ∧
    find demo (.hash 1006) = .block 6 ∧ find demo (.hash 77) = .crashes := by decide +kernel

example : 1 ≤ demo.base ∧ demo.top ≤ 9223372036854775807 ∧
    ∀ a b, Has demo a → Has demo b → demo.hash a = demo.hash b → a = b :=
  ⟨by decide, by decide, fun a b _ _ h => by simpa [demo] using h⟩

example : Letter 'l' ∧ ¬ Word ['l','a','t','e','t','s'] ∧ has0x ['1','2'] = false := by
  refine ⟨Or.inl (by decide), ?_, rfl⟩
  unfold Word
  decide

end BlockRef
