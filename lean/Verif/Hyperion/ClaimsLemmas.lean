import Verif.Hyperion.Claims
/-!
# Lemmas about the strings hashed for claims
-/
namespace Hyperion

/-! ## Decimal numbers -/

/-- Reads a decimal number. -/
def undec (s : Str) : Nat := s.foldl (fun a c => 10 * a + (c.toNat - 48)) 0

theorem digit_toNat {n : Nat} (h : n < 10) : (digit n).toNat = 48 + n := by
  unfold digit
  rw [UInt8.toNat_ofNat']
  omega

theorem undec_append (a : Str) (c : UInt8) : undec (a ++ [c]) = 10 * undec a + (c.toNat - 48) := by
  simp [undec]

theorem undec_decAux (f : Nat) : ∀ n, n < f → undec (decAux f n) = n := by
  induction f with
  | zero => intro n h; omega
  | succ f ih =>
    intro n h
    unfold decAux
    split
    · rename_i hn
      simp [undec, digit_toNat hn]
    · rw [undec_append, ih (n / 10) (by omega), digit_toNat (by omega)]
      omega

theorem undec_dec (n : Nat) : undec (dec n) = n := undec_decAux _ n (by omega)

theorem dec_inj {m n : Nat} (h : dec m = dec n) : m = n := by
  rw [← undec_dec m, h, undec_dec]

theorem decAux_digits (f : Nat) : ∀ n, ∀ c ∈ decAux f n, 48 ≤ c.toNat ∧ c.toNat ≤ 57 := by
  induction f with
  | zero => intro n c h; cases h
  | succ f ih =>
    intro n c h
    unfold decAux at h
    split at h
    · rename_i hn
      rw [List.mem_singleton] at h
      rw [h, digit_toNat hn]
      omega
    · rcases List.mem_append.1 h with h | h
      · exact ih _ _ h
      · rw [List.mem_singleton] at h
        rw [h, digit_toNat (by omega)]
        omega

theorem dec_digits (n : Nat) : ∀ c ∈ dec n, 48 ≤ c.toNat ∧ c.toNat ≤ 57 := decAux_digits _ n

theorem decInt_chars (a : Int) : ∀ c ∈ decInt a, c.toNat = 45 ∨ (48 ≤ c.toNat ∧ c.toNat ≤ 57) := by
  cases a with
  | ofNat n => exact fun c h => Or.inr (dec_digits n c h)
  | negSucc n =>
    intro c h
    rcases List.mem_cons.1 h with rfl | h
    · exact Or.inl rfl
    · exact Or.inr (dec_digits _ c h)

theorem decInt_inj {a b : Int} (h : decInt a = decInt b) : a = b := by
  cases a with
  | ofNat n =>
    cases b with
    | ofNat m => exact congrArg Int.ofNat (dec_inj h)
    | negSucc m =>
      have : (0x2d : UInt8) ∈ dec n := by
        have h' : dec n = 0x2d :: dec (m + 1) := h
        rw [h']
        exact List.mem_cons_self
      have := dec_digits n _ this
      simp at this
  | negSucc n =>
    cases b with
    | ofNat m =>
      have : (0x2d : UInt8) ∈ dec m := by
        have h' : 0x2d :: dec (n + 1) = dec m := h
        rw [← h']
        exact List.mem_cons_self
      have := dec_digits m _ this
      simp at this
    | negSucc m =>
      have h' : 0x2d :: dec (n + 1) = 0x2d :: dec (m + 1) := h
      have := dec_inj (List.cons.inj h').2
      have : n = m := by omega
      rw [this]

/-! ## Fields between separators -/

/-- No separator inside. -/
def noSlash (s : Str) : Prop := slash ∉ s

theorem split_slash {a b x y : Str} (ha : noSlash a) (hb : noSlash b) (h : a ++ slash :: x = b ++ slash :: y) :
    a = b ∧ x = y := by
  induction a generalizing b with
  | nil =>
    cases b with
    | nil => exact ⟨rfl, (List.cons.inj h).2⟩
    | cons c b =>
      have := (List.cons.inj h).1
      exact absurd (this ▸ List.mem_cons_self : slash ∈ c :: b) hb
  | cons d a ih =>
    cases b with
    | nil =>
      have := (List.cons.inj h).1
      exact absurd (this ▸ List.mem_cons_self : slash ∈ d :: a) ha
    | cons c b =>
      obtain ⟨h1, h2⟩ := List.cons.inj h
      obtain ⟨h3, h4⟩ := ih (fun hm => ha (List.mem_cons_of_mem _ hm)) (fun hm => hb (List.mem_cons_of_mem _ hm)) h2
      exact ⟨by rw [h1, h3], h4⟩

theorem dec_noSlash (n : Nat) : noSlash (dec n) := by
  intro h
  have := dec_digits n _ h
  simp [slash] at this

theorem decInt_noSlash (a : Int) : noSlash (decInt a) := by
  intro h
  have := decInt_chars a _ h
  simp [slash] at this

theorem hex_noSlash {s : Str} (h : s.all isHexDigit = true) : noSlash s := by
  intro hm
  have := List.all_eq_true.1 h _ hm
  revert this
  decide

theorem eth_noSlash {a : Str} (h : isEthAddress a = true) : noSlash a := by
  unfold isEthAddress at h
  dsimp only at h
  obtain ⟨_, h2⟩ := (Bool.and_eq_true _ _ ▸ h : _ ∧ _)
  split at h2
  · have := hex_noSlash h2
    intro hm
    simp only [List.mem_cons] at hm
    rcases hm with hm | hm | hm
    · revert hm; decide
    · revert hm; decide
    · exact this hm
  · have := hex_noSlash h2
    intro hm
    simp only [List.mem_cons] at hm
    rcases hm with hm | hm | hm
    · revert hm; decide
    · revert hm; decide
    · exact this hm
  · exact hex_noSlash h2

theorem bech32_noSlash {s : Str} (h : s.all isBech32Char = true) : noSlash s := by
  intro hm
  have := List.all_eq_true.1 h _ hm
  revert this
  decide

/-! ## Validator set claims -/

theorem eth_chars {a : Str} (h : isEthAddress a = true) : a ≠ [] ∧ (0x22 : UInt8) ∉ a := by
  have hex : ∀ {s : Str}, s.all isHexDigit = true → (0x22 : UInt8) ∉ s := by
    intro s hs hm
    have := List.all_eq_true.1 hs _ hm
    revert this
    decide
  unfold isEthAddress at h
  dsimp only at h
  obtain ⟨h1, h2⟩ := (Bool.and_eq_true _ _ ▸ h : _ ∧ _)
  split at h2
  · refine ⟨by simp, ?_⟩
    intro hm
    simp only [List.mem_cons] at hm
    rcases hm with hm | hm | hm
    · revert hm; decide
    · revert hm; decide
    · exact hex h2 hm
  · refine ⟨by simp, ?_⟩
    intro hm
    simp only [List.mem_cons] at hm
    rcases hm with hm | hm | hm
    · revert hm; decide
    · revert hm; decide
    · exact hex h2 hm
  · refine ⟨?_, hex h2⟩
    rintro rfl
    simp at h1

theorem split_at {q : UInt8} {a b x y : Str} (ha : q ∉ a) (hb : q ∉ b) (h : a ++ q :: x = b ++ q :: y) : a = b ∧ x = y := by
  induction a generalizing b with
  | nil =>
    cases b with
    | nil => exact ⟨rfl, (List.cons.inj h).2⟩
    | cons c b =>
      have := (List.cons.inj h).1
      exact absurd (this ▸ List.mem_cons_self : q ∈ c :: b) hb
  | cons d a ih =>
    cases b with
    | nil =>
      have := (List.cons.inj h).1
      exact absurd (this ▸ List.mem_cons_self : q ∈ d :: a) ha
    | cons c b =>
      obtain ⟨h1, h2⟩ := List.cons.inj h
      obtain ⟨h3, h4⟩ := ih (fun hm => ha (List.mem_cons_of_mem _ hm)) (fun hm => hb (List.mem_cons_of_mem _ hm)) h2
      exact ⟨by rw [h1, h3], h4⟩

theorem memberStr_split {m1 m2 : Member} {x y : Str} (h1 : isEthAddress m1.addr = true) (h2 : isEthAddress m2.addr = true)
    (h : memberStr m1 ++ x = memberStr m2 ++ y) : m1 = m2 ∧ x = y := by
  have key : ∀ {m1 m2 : Member} {x y : Str}, isEthAddress m1.addr = true → isEthAddress m2.addr = true →
      addrTag ++ (m1.addr ++ [0x22, 0x20]) ++ x = addrTag ++ (m2.addr ++ [0x22, 0x20]) ++ y → m1.addr = m2.addr ∧ x = y := by
    intro m1 m2 x y h1 h2 h
    simp only [List.append_assoc] at h
    have h := List.append_cancel_left h
    have h : m1.addr ++ 0x22 :: (0x20 :: x) = m2.addr ++ 0x22 :: (0x20 :: y) := by simpa using h
    obtain ⟨e1, e2⟩ := split_at (eth_chars h1).2 (eth_chars h2).2 h
    exact ⟨e1, (List.cons.inj e2).2⟩
  have nospace : ∀ n, (0x20 : UInt8) ∉ dec n := by
    intro n hm
    have := dec_digits n _ hm
    simp at this
  unfold memberStr at h
  rw [if_neg (eth_chars h1).1, if_neg (eth_chars h2).1] at h
  by_cases z1 : m1.power = 0
  · by_cases z2 : m2.power = 0
    · rw [if_pos z1, if_pos z2, List.nil_append, List.nil_append] at h
      obtain ⟨e1, e2⟩ := key h1 h2 h
      refine ⟨?_, e2⟩
      cases m1; cases m2
      simp_all
    · rw [if_pos z1, if_neg z2] at h
      simp [addrTag, powerTag] at h
  · by_cases z2 : m2.power = 0
    · rw [if_neg z1, if_pos z2] at h
      simp [addrTag, powerTag] at h
    · rw [if_neg z1, if_neg z2] at h
      simp only [List.append_assoc] at h
      have h := List.append_cancel_left h
      simp only [List.cons_append, List.nil_append] at h
      obtain ⟨e1, h⟩ := split_at (nospace _) (nospace _) h
      obtain ⟨e2, h⟩ := key h1 h2 (x := x) (y := y) (by simpa using h)
      refine ⟨?_, h⟩
      cases m1; cases m2
      simp only [Member.mk.injEq]
      exact ⟨dec_inj e1, e2⟩

/-- The members after the opening bracket. -/
theorem members_inj : ∀ {l1 l2 : List Member} {x y : Str}, l1.all (fun m => isEthAddress m.addr) = true →
    l2.all (fun m => isEthAddress m.addr) = true →
    ((l1.map memberStr).intersperse [0x20]).flatten ++ 0x5d :: x = ((l2.map memberStr).intersperse [0x20]).flatten ++ 0x5d :: y →
    l1 = l2 := by
  have first : ∀ (m : Member) (x : Str), isEthAddress m.addr = true → ∃ c r, memberStr m ++ x = c :: r ∧ c ≠ 0x5d ∧ c ≠ 0x20 := by
    intro m x hm
    unfold memberStr
    rw [if_neg (eth_chars hm).1]
    by_cases z : m.power = 0
    · rw [if_pos z]
      exact ⟨0x65, _, rfl, by decide, by decide⟩
    · rw [if_neg z]
      exact ⟨0x70, _, rfl, by decide, by decide⟩
  intro l1
  induction l1 with
  | nil =>
    intro l2 x y _ v2 h
    cases l2 with
    | nil => rfl
    | cons m l2 =>
      have v := (Bool.and_eq_true _ _ ▸ v2 : _ ∧ _).1
      exfalso
      cases l2 with
      | nil =>
        simp only [List.map_nil, List.intersperse, List.flatten_nil, List.nil_append, List.map_cons, List.flatten_cons,
          List.append_nil] at h
        obtain ⟨c, r, e, n1, _⟩ := first m (0x5d :: y) v
        rw [e] at h
        exact n1 (List.cons.inj h).1.symm
      | cons m' l2 =>
        simp only [List.map_nil, List.intersperse, List.flatten_nil, List.nil_append, List.map_cons, List.flatten_cons,
          List.append_assoc] at h
        obtain ⟨c, r, e, n1, _⟩ := first m _ v
        rw [e] at h
        exact n1 (List.cons.inj h).1.symm
  | cons m1 l1 ih =>
    intro l2 x y v1 v2 h
    obtain ⟨w1, v1'⟩ := (Bool.and_eq_true _ _ ▸ v1 : _ ∧ _)
    cases l2 with
    | nil =>
      exfalso
      cases l1 with
      | nil =>
        simp only [List.map_nil, List.intersperse, List.flatten_nil, List.nil_append, List.map_cons, List.flatten_cons,
          List.append_nil] at h
        obtain ⟨c, r, e, n1, _⟩ := first m1 (0x5d :: x) w1
        rw [e] at h
        exact n1 (List.cons.inj h).1
      | cons m' l1 =>
        simp only [List.map_nil, List.intersperse, List.flatten_nil, List.nil_append, List.map_cons, List.flatten_cons,
          List.append_assoc] at h
        obtain ⟨c, r, e, n1, _⟩ := first m1 _ w1
        rw [e] at h
        exact n1 (List.cons.inj h).1
    | cons m2 l2 =>
      obtain ⟨w2, v2'⟩ := (Bool.and_eq_true _ _ ▸ v2 : _ ∧ _)
      cases l1 with
      | nil =>
        cases l2 with
        | nil =>
          simp only [List.map_nil, List.intersperse, List.flatten_nil, List.map_cons, List.flatten_cons, List.append_nil] at h
          rw [(memberStr_split w1 w2 h).1]
        | cons m' l2 =>
          simp only [List.map_nil, List.intersperse, List.flatten_nil, List.map_cons, List.flatten_cons, List.append_nil,
            List.append_assoc] at h
          have := (memberStr_split w1 w2 h).2
          simp at this
      | cons m1' l1 =>
        cases l2 with
        | nil =>
          simp only [List.map_nil, List.intersperse, List.flatten_nil, List.map_cons, List.flatten_cons, List.append_nil,
            List.append_assoc] at h
          have := (memberStr_split w1 w2 h).2
          simp at this
        | cons m2' l2 =>
          have h' : memberStr m1 ++ (0x20 :: (((((m1' :: l1).map memberStr).intersperse [0x20]).flatten) ++ 0x5d :: x)) =
              memberStr m2 ++ (0x20 :: (((((m2' :: l2).map memberStr).intersperse [0x20]).flatten) ++ 0x5d :: y)) := by
            simpa [List.intersperse] using h
          obtain ⟨e1, h⟩ := memberStr_split w1 w2 h'
          rw [e1, ih v1' v2' (List.cons.inj h).2]

theorem split_last {a b : Str} (h : a ++ [slash] = b ++ [slash]) : a = b := List.append_cancel_right h

/-! ## Different kinds of claims -/

/-- The number of separators. -/
def slashes (s : Str) : Nat := s.count slash

theorem slashes_append (a b : Str) : slashes (a ++ b) = slashes a + slashes b := List.count_append

theorem slashes_cons (b : Str) : slashes (slash :: b) = slashes b + 1 := by simp [slashes]

theorem slashes_zero {a : Str} (h : noSlash a) : slashes a = 0 := List.count_eq_zero.2 h

theorem memberStr_noSlash {m : Member} (h : isEthAddress m.addr = true) : noSlash (memberStr m) := by
  intro hm
  unfold memberStr at hm
  rcases List.mem_append.1 hm with hm | hm
  · split at hm
    · cases hm
    · rcases List.mem_append.1 hm with hm | hm
      · revert hm; decide
      · rcases List.mem_append.1 hm with hm | hm
        · exact dec_noSlash _ hm
        · revert hm; decide
  · split at hm
    · cases hm
    · rcases List.mem_append.1 hm with hm | hm
      · revert hm; decide
      · rcases List.mem_append.1 hm with hm | hm
        · exact eth_noSlash h hm
        · revert hm; decide

theorem membersStr_noSlash {l : List Member} (h : l.all (fun m => isEthAddress m.addr) = true) : noSlash (membersStr l) := by
  intro hm
  unfold membersStr at hm
  have hm : slash ∈ (0x5b : UInt8) :: (((l.map memberStr).intersperse [0x20]).flatten ++ [0x5d]) := hm
  rcases List.mem_cons.1 hm with hm | hm
  · revert hm; decide
  · rcases List.mem_append.1 hm with hm | hm
    · obtain ⟨s, hs, hm⟩ := List.mem_flatten.1 hm
      have : ∀ (l : List Member), l.all (fun m => isEthAddress m.addr) = true → s ∈ (l.map memberStr).intersperse [0x20] →
          noSlash s := by
        intro l
        induction l with
        | nil => intro _ h; cases h
        | cons m l ih =>
          intro hl hs
          obtain ⟨w, hl'⟩ := (Bool.and_eq_true _ _ ▸ hl : _ ∧ _)
          cases l with
          | nil =>
            simp only [List.map_cons, List.map_nil, List.intersperse, List.mem_singleton] at hs
            rw [hs]
            exact memberStr_noSlash w
          | cons m' l =>
            simp only [List.map_cons, List.intersperse, List.mem_cons] at hs
            rcases hs with rfl | rfl | hs
            · exact memberStr_noSlash w
            · intro h; revert h; decide
            · exact ih hl' (by simpa using hs)
      exact this l h hs hm
    · revert hm; decide

/-- The kind of a claim. -/
def Claim.kind : Claim → Nat
  | .deposit .. => 0
  | .withdraw .. => 1
  | .deployed .. => 2
  | .valset .. => 3

theorem slashes_kind {c : Claim} (v : c.basic = true) :
    (c.kind = 1 → slashes (claimPath c) = 3) ∧ (c.kind = 3 → slashes (claimPath c) = 4) ∧
    (c.kind = 0 ∨ c.kind = 2 → 6 ≤ slashes (claimPath c)) := by
  cases c with
  | deposit hid n b t a s r d x o =>
    refine ⟨fun h => by simp [Claim.kind] at h, fun h => by simp [Claim.kind] at h, fun _ => ?_⟩
    simp only [claimPath, slashes_append, slashes_cons]
    omega
  | withdraw hid n b k t x o =>
    simp only [Claim.basic, Bool.and_eq_true] at v
    refine ⟨fun _ => ?_, fun h => by simp [Claim.kind] at h, fun h => by simp [Claim.kind] at h⟩
    simp only [claimPath, slashes_append, slashes_cons]
    rw [slashes_zero (eth_noSlash v.2), slashes_zero (dec_noSlash _), slashes_zero (dec_noSlash _)]
  | deployed hid n b d t m y c o =>
    refine ⟨fun h => by simp [Claim.kind] at h, fun h => by simp [Claim.kind] at h, fun _ => ?_⟩
    simp only [claimPath, slashes_append, slashes_cons]
    omega
  | valset hid n k b m r t o =>
    simp only [Claim.basic, Bool.and_eq_true] at v
    refine ⟨fun h => by simp [Claim.kind] at h, fun _ => ?_, fun h => by simp [Claim.kind] at h⟩
    simp only [claimPath, slashes_append, slashes_cons]
    rw [slashes_zero (dec_noSlash _), slashes_zero (dec_noSlash _), slashes_zero (dec_noSlash _),
      slashes_zero (membersStr_noSlash v.2)]
    simp [slashes]

end Hyperion
