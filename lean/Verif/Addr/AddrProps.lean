import Verif.Addr.Lemmas

/-!
# C74: address strings

What the theorems say:

* `decode_encode`, `encode_decode`: writing and reading bech32 text are inverse to each other;
  an address has exactly one spelling, apart from writing all letters in capitals;
* `typos_detected`: one or two wrong characters in an account address are always noticed;
* `any_hex`, `any_val`, `any_acc_partial`: the chain's helper `AnyToHexAddress` reads
  hexadecimal text, validator text and account text as the address it was written from —
  account text only if it does not happen to contain the letters `val`;
* `any_acc_zero`, `any_acc_iff`: all other account text is read as the zero address, so the
  helper is *not* right for every account (`any_acc_fails`), and it does not even tell accounts
  apart (`any_collides`); the checks that compare a signer with the initializer of a bridged
  chain through this helper can be passed by another account (`initializer_fails`).
-/

namespace Addr

/-- Twenty bytes. -/
def IsAddress (a : List Nat) : Prop := a.length = 20 ∧ ∀ b ∈ a, b < 256

/-- Bytes. -/
def AreBytes (a : List Nat) : Prop := ∀ b ∈ a, b < 256

instance (a : List Nat) : Decidable (AreBytes a) := inferInstanceAs (Decidable (∀ b ∈ a, b < 256))
instance (a : List Nat) : Decidable (IsAddress a) := inferInstanceAs (Decidable (_ ∧ _))

/-- A prefix as the chain uses it: not empty, printable, without capitals. -/
def GoodPrefix (h : Str) : Prop := h ≠ [] ∧ ∀ c ∈ h, 33 ≤ c ∧ c ≤ 126 ∧ isUpper c = false

instance (h : Str) : Decidable (GoodPrefix h) := inferInstanceAs (Decidable (_ ∧ _))

theorem accHrp_good : GoodPrefix accHrp := by decide +kernel
theorem valHrp_good : GoodPrefix valHrp := by decide +kernel

theorem lower_of_not_upper {c : Nat} (h : isUpper c = false) : lower c = c := by
  unfold isUpper at h; unfold lower
  rw [if_neg (of_decide_eq_false h)]

/-- Everything about the values in an encoded string. -/
theorem values_lt (h : Str) (bs : List Nat) :
    ∀ v ∈ toGroups bs ++ checksum h (toGroups bs), v < 32 := fun v hv =>
  (List.mem_append.mp hv).elim (toGroups_lt bs v) (checksum_lt _ _ v)

theorem encode_chars {h : Str} (hg : GoodPrefix h) (bs : List Nat) :
    ∀ c ∈ encode h bs, 33 ≤ c ∧ c ≤ 126 ∧ isUpper c = false := by
  intro c hc
  rcases List.mem_append.mp hc with hc | hc
  · exact hg.2 c hc
  · rcases List.mem_cons.mp hc with rfl | hc
    · decide
    · obtain ⟨v, hv, rfl⟩ := List.mem_map.mp hc
      have := charOf_plain v (values_lt h bs v hv)
      exact ⟨this.2.1, this.2.2.1, this.2.2.2.1⟩

theorem lower_encode {h : Str} (hg : GoodPrefix h) (bs : List Nat) :
    (encode h bs).map lower = encode h bs := by
  conv => rhs; rw [← List.map_id (encode h bs)]
  exact List.map_congr_left (fun c hc => lower_of_not_upper (encode_chars hg bs c hc).2.2)

/-- **C74.**  Reading what was written gives the prefix and the bytes back. -/
theorem decode_encode {h : Str} {bs : List Nat} (hg : GoodPrefix h) (hb : AreBytes bs) :
    decode (encode h bs) = some (h, bs) := by
  have hraw : decodeRaw (encode h bs) = some (h, toGroups bs) := by
    unfold decodeRaw
    have h1 : (encode h bs).all (fun c => decide (33 ≤ c ∧ c ≤ 126)) = true :=
      List.all_eq_true.mpr (fun c hc => decide_eq_true
        ⟨(encode_chars hg bs c hc).1, (encode_chars hg bs c hc).2.1⟩)
    have h2 : (encode h bs).any isUpper = false :=
      List.any_eq_false.mpr (fun c hc => by rw [(encode_chars hg bs c hc).2.2]; exact Bool.false_ne_true)
    rw [h1, h2, lower_encode hg]
    simp only [Bool.false_and, Bool.not_false, Bool.and_true, if_true]
    have h3 : 49 ∉ (toGroups bs ++ checksum h (toGroups bs)).map charOf := by
      intro hm
      obtain ⟨v, hv, he⟩ := List.mem_map.mp hm
      exact (charOf_plain v (values_lt h bs v hv)).1 he
    have h4 : splitLast (encode h bs)
        = some (h, (toGroups bs ++ checksum h (toGroups bs)).map charOf) := splitLast_append h3 h
    rw [h4]
    dsimp only
    rw [if_neg hg.1, valuesOf_map (values_lt h bs)]
    dsimp only
    rw [List.length_append, checksum_length, if_neg (by omega), Nat.add_sub_cancel,
      List.take_left' rfl, if_pos ((check_iff h (toGroups bs) _ (checksum_length ..)
        (checksum_lt _ _)).mpr rfl)]
  unfold decode
  rw [hraw]
  dsimp only
  rw [ofGroups_toGroups hb]

theorem decodeRaw_some {s h : Str} {gs : List Nat} (e : decodeRaw s = some (h, gs)) :
    h ≠ [] ∧ (∀ g ∈ gs, g < 32) ∧ s.map lower = h ++ 49 :: (gs ++ checksum h gs).map charOf ∧
      (s.any isUpper && s.any isLower) = false := by
  unfold decodeRaw at e
  split at e
  · rename_i hc
    rw [Bool.and_eq_true] at hc
    split at e
    · cases e
    · rename_i hrp tail hs
      split at e
      · cases e
      · rename_i hne
        split at e
        · cases e
        · rename_i vs hv
          split at e
          · cases e
          · rename_i hlen
            split at e
            · rename_i hp
              injection e with e
              injection e with e1 e2
              subst e1; subst e2
              obtain ⟨hm, hlt⟩ := map_valuesOf hv
              have hl6 : (vs.drop (vs.length - 6)).length = 6 := by
                rw [List.length_drop]; omega
              have hsplit : vs.take (vs.length - 6) ++ vs.drop (vs.length - 6) = vs :=
                List.take_append_drop ..
              have hck := (check_iff hrp (vs.take (vs.length - 6)) (vs.drop (vs.length - 6)) hl6
                (fun v hv' => hlt v (List.mem_of_mem_drop hv'))).mp (by rw [hsplit]; exact hp)
              refine ⟨hne, fun g hg => hlt g (List.mem_of_mem_take hg), ?_, ?_⟩
              · rw [← hck, hsplit, hm]; exact splitLast_some hs
              · have := hc.2
                cases hx : (s.any isUpper && s.any isLower)
                · rfl
                · rw [hx] at this; cases this
            · cases e
  · cases e

/-- **C74.**  Accepted text is, up to the case of its letters, exactly the text the chain writes
for the same prefix and bytes; and it does not mix capitals and small letters. -/
theorem encode_decode {s h : Str} {bs : List Nat} (e : decode s = some (h, bs)) :
    s.map lower = encode h bs ∧ AreBytes bs ∧ (s.any isUpper && s.any isLower) = false := by
  unfold decode at e
  split at e
  · cases e
  · rename_i hrp gs hr
    split at e
    · cases e
    · rename_i bs' ho
      injection e with e
      injection e with e1 e2
      subst e1; subst e2
      obtain ⟨_, hlt, hs, hcase⟩ := decodeRaw_some hr
      obtain ⟨htg, hb⟩ := toGroups_ofGroups hlt ho
      exact ⟨by rw [hs, encode, htg], hb, hcase⟩

/-- **C74.**  Two accepted spellings of the same address are the same letters. -/
theorem spelling_unique {s t : Str} {x : Str × List Nat} (hs : decode s = some x)
    (ht : decode t = some x) : s.map lower = t.map lower := by
  rw [(encode_decode (h := x.1) (bs := x.2) hs).1, (encode_decode (h := x.1) (bs := x.2) ht).1]

/-! ## Typing errors -/

/-- The number of places in which two strings differ. -/
def typos : Str → Str → Nat
  | a :: s, b :: t => (if a = b then 0 else 1) + typos s t
  | _, _ => 0

theorem shiftStep_inj_zero {c : BitVec 30} (h : shiftStep c = 0) : c = 0 := by
  have key : ∀ b25 b26 b27 b28 b29 : Bool,
      (∀ i < 5, ((if b25 then 0x3b6a57b2#30 else 0) ^^^ ((if b26 then 0x26508e6d#30 else 0) ^^^
        ((if b27 then 0x1ea119fa#30 else 0) ^^^ ((if b28 then 0x3d4233dd#30 else 0) ^^^
        (if b29 then 0x2a1462b3#30 else (0 : BitVec 30)))))).getLsbD i = false) →
      b25 = false ∧ b26 = false ∧ b27 = false ∧ b28 = false ∧ b29 = false := by decide +kernel
  have hlow : ∀ i < 5, (generator c).getLsbD i = false := by
    intro i hi
    have h1 : (shiftStep c).getLsbD i = false := by rw [h]; exact BitVec.getLsbD_zero
    unfold shiftStep at h1
    rw [BitVec.getLsbD_xor, BitVec.getLsbD_shiftLeft] at h1
    simpa [hi] using h1
  obtain ⟨h25, h26, h27, h28, h29⟩ := key _ _ _ _ _ hlow
  have hg : generator c = 0 := by
    unfold generator; rw [h25, h26, h27, h28, h29]; rfl
  apply BitVec.eq_of_getLsbD_eq
  intro i hi
  rw [show (0 : BitVec 30).getLsbD i = false from BitVec.getLsbD_zero]
  by_cases h5 : i < 25
  · have h1 : (shiftStep c).getLsbD (i + 5) = false := by rw [h]; exact BitVec.getLsbD_zero
    unfold shiftStep at h1
    rw [hg, BitVec.getLsbD_xor, BitVec.getLsbD_shiftLeft, BitVec.getLsbD_and] at h1
    have hm : (0x1ffffff#30).getLsbD i = true := by
      have : ∀ i < 25, (0x1ffffff#30).getLsbD i = true := by decide +kernel
      exact this i h5
    simpa [hm, show i + 5 < 30 by omega] using h1
  · have : i = 25 ∨ i = 26 ∨ i = 27 ∨ i = 28 ∨ i = 29 := by omega
    rcases this with rfl | rfl | rfl | rfl | rfl
    · exact h25
    · exact h26
    · exact h27
    · exact h28
    · exact h29

theorem shifts_inj_zero : ∀ (n : Nat) {c : BitVec 30}, shifts n c = 0 → c = 0
  | 0, _, h => h
  | n + 1, _, h => shiftStep_inj_zero (shifts_inj_zero n h)

/-- A run of empty steps never comes back to five bits too early. -/
def quiet : Nat → BitVec 30 → Bool
  | 0, _ => true
  | n + 1, c => decide (32 ≤ (shiftStep c).toNat) && quiet n (shiftStep c)

theorem quiet_spec : ∀ (n : Nat) (c : BitVec 30), quiet n c = true →
    ∀ m < n, 32 ≤ (shifts (m + 1) c).toNat
  | 0, _, _, m, hm => absurd hm (Nat.not_lt_zero _)
  | n + 1, c, h, m, hm => by
    rw [quiet, Bool.and_eq_true] at h
    cases m with
    | zero => exact of_decide_eq_true h.1
    | succ m => exact quiet_spec n (shiftStep c) h.2 m (by omega)

theorem all_quiet : ∀ e < 31, quiet 1022 (BitVec.ofNat 30 (e + 1)) = true := by decide +kernel

theorem shifts_apart {e f n : Nat} (he : 1 ≤ e) (he' : e < 32) (hf : f < 32) (hn : 1 ≤ n)
    (hn' : n ≤ 1022) : shifts n (BitVec.ofNat 30 e) ≠ BitVec.ofNat 30 f := by
  intro h
  have h1 := quiet_spec 1022 _ (all_quiet (e - 1) (by omega)) (n - 1) (by omega)
  rw [show n - 1 + 1 = n by omega, show e - 1 + 1 = e by omega, h, BitVec.toNat_ofNat,
    Nat.mod_eq_of_lt (Nat.lt_of_lt_of_le hf (by decide))] at h1
  omega

/-- The difference of two checksums is the checksum of the differences. -/
theorem polymod_diff : ∀ (vs ws : List Nat) (c d : BitVec 30), vs.length = ws.length →
    polymod c vs ^^^ polymod d ws = polymod (c ^^^ d) (List.zipWith (· ^^^ ·) vs ws)
  | [], [], _, _, _ => rfl
  | [], _ :: _, _, _, h => by cases h
  | _ :: _, [], _, _, h => by cases h
  | v :: vs, w :: ws, c, d, h => by
    have hl : vs.length = ws.length := Nat.succ.inj h
    have := polymod_diff vs ws (polyStep c v) (polyStep d w) hl
    show polymod (polyStep c v) vs ^^^ polymod (polyStep d w) ws
      = polymod (polyStep (c ^^^ d) (v ^^^ w)) (List.zipWith (· ^^^ ·) vs ws)
    rw [this]
    congr 1
    rw [polyStep_eq, polyStep_eq, polyStep_eq, shiftStep_xor, BitVec.ofNat_xor]
    exact xor_swap4 _ _ _ _

/-- The number of values that are not zero. -/
def weight : List Nat → Nat
  | [] => 0
  | v :: vs => (if v = 0 then 0 else 1) + weight vs

theorem weight_zero : ∀ {vs : List Nat}, weight vs = 0 → ∀ c, polymod c vs = shifts vs.length c
  | [], _, _ => rfl
  | v :: vs, h, c => by
    rw [weight] at h
    have hv : v = 0 := by
      by_cases hv : v = 0
      · exact hv
      · rw [if_neg hv] at h; omega
    subst hv
    show polymod (polyStep c 0) vs = shifts vs.length (shiftStep c)
    rw [weight_zero (by simpa using h), polyStep_eq]
    congr 1
    exact BitVec.xor_zero ..

theorem ofNat_xor_eq_zero {x y : BitVec 30} (h : x ^^^ y = 0) : x = y := by
  have : x ^^^ y ^^^ y = 0#30 ^^^ y := by rw [h]; rfl
  rw [BitVec.xor_assoc, BitVec.xor_self, BitVec.xor_zero, BitVec.zero_xor] at this
  exact this

/-- With one more non-zero value, after a single earlier one, the checksum is not zero. -/
theorem weight_one_after : ∀ {vs : List Nat} {e n : Nat}, weight vs = 1 → (∀ v ∈ vs, v < 32) →
    1 ≤ e → e < 32 → n + vs.length ≤ 1022 → polymod (shifts n (BitVec.ofNat 30 e)) vs ≠ 0
  | [], _, _, h, _, _, _, _ => by cases h
  | v :: vs, e, n, h, hlt, he, he', hn => by
    intro hp
    rw [weight] at h
    have hlen : (v :: vs).length = vs.length + 1 := rfl
    have hss : ∀ n (c : BitVec 30), shiftStep (shifts n c) = shifts (n + 1) c := by
      intro n
      induction n with
      | zero => intro c; rfl
      | succ n ih => intro c; rw [shifts, ih]; rfl
    have hstep : polymod (shifts n (BitVec.ofNat 30 e)) (v :: vs)
        = polymod (shifts (n + 1) (BitVec.ofNat 30 e) ^^^ BitVec.ofNat 30 v) vs := by
      show polymod (polyStep _ v) vs = _
      rw [polyStep_eq, hss]
    rw [hstep] at hp
    by_cases hv : v = 0
    · subst hv
      rw [BitVec.xor_zero] at hp
      exact weight_one_after (by simpa using h) (fun x hx => hlt x (List.mem_cons_of_mem _ hx)) he he'
        (by omega) hp
    · rw [if_neg hv] at h
      rw [weight_zero (by omega)] at hp
      have := ofNat_xor_eq_zero (shifts_inj_zero _ hp)
      exact shifts_apart he he' (hlt v List.mem_cons_self) (by omega) (by omega) this

/-- A checksum of one or two non-zero values is not zero. -/
theorem weight_small : ∀ {vs : List Nat}, 1 ≤ weight vs → weight vs ≤ 2 → (∀ v ∈ vs, v < 32) →
    vs.length ≤ 1023 → polymod 0 vs ≠ 0
  | [], h, _, _, _ => by cases h
  | v :: vs, h1, h2, hlt, hn => by
    intro hp
    have hstep : polymod 0 (v :: vs) = polymod (BitVec.ofNat 30 v) vs := by
      show polymod (polyStep 0 v) vs = _
      rw [polyStep_eq, shiftStep_zero, show (0 : BitVec 30) ^^^ BitVec.ofNat 30 v = BitVec.ofNat 30 v
        from BitVec.zero_xor ..]
    have hlen : (v :: vs).length = vs.length + 1 := rfl
    rw [hstep] at hp
    rw [weight] at h1 h2
    by_cases hv : v = 0
    · subst hv
      rw [if_pos rfl, Nat.zero_add] at h1 h2
      exact weight_small h1 h2 (fun x hx => hlt x (List.mem_cons_of_mem _ hx)) (by omega) hp
    · rw [if_neg hv] at h1 h2
      have hv32 := hlt v List.mem_cons_self
      by_cases hw : weight vs = 0
      · rw [weight_zero hw] at hp
        have := shifts_inj_zero _ hp
        have hx : (BitVec.ofNat 30 v).toNat = 0 := by rw [this]; rfl
        rw [BitVec.toNat_ofNat, Nat.mod_eq_of_lt (Nat.lt_of_lt_of_le hv32 (by decide))] at hx
        exact hv hx
      · exact weight_one_after (n := 0) (by omega) (fun x hx => hlt x (List.mem_cons_of_mem _ hx))
          (by omega) hv32 (by omega) hp

theorem charOf_inj : ∀ v < 32, ∀ w < 32, charOf v = charOf w → v = w := by decide +kernel

theorem xor_lt_32 : ∀ v < 32, ∀ w < 32, v ^^^ w < 32 ∧ (v ^^^ w = 0 ↔ v = w) := by decide +kernel

theorem typos_weight : ∀ (vs ws : List Nat), vs.length = ws.length → (∀ v ∈ vs, v < 32) →
    (∀ w ∈ ws, w < 32) →
    typos (vs.map charOf) (ws.map charOf) = weight (List.zipWith (· ^^^ ·) vs ws) ∧
      ∀ x ∈ List.zipWith (· ^^^ ·) vs ws, x < 32
  | [], [], _, _, _ => ⟨rfl, by intro x hx; cases hx⟩
  | [], _ :: _, h, _, _ => by cases h
  | _ :: _, [], h, _, _ => by cases h
  | v :: vs, w :: ws, h, hv, hw => by
    obtain ⟨ih1, ih2⟩ := typos_weight vs ws (Nat.succ.inj h)
      (fun x hx => hv x (List.mem_cons_of_mem _ hx)) (fun x hx => hw x (List.mem_cons_of_mem _ hx))
    have hv0 := hv v List.mem_cons_self
    have hw0 := hw w List.mem_cons_self
    obtain ⟨hx1, hx2⟩ := xor_lt_32 v hv0 w hw0
    constructor
    · rw [List.map_cons, List.map_cons, typos, ih1, List.zipWith_cons_cons, weight]
      congr 1
      by_cases hc : v = w
      · rw [if_pos (by rw [hc]), if_pos (hx2.mpr hc)]
      · rw [if_neg (fun e => hc (charOf_inj v hv0 w hw0 e)), if_neg (fun e => hc (hx2.mp e))]
    · intro x hx
      rw [List.zipWith_cons_cons] at hx
      rcases List.mem_cons.mp hx with rfl | hx
      · exact hx1
      · exact ih2 x hx

theorem typos_prefix (p : Str) (s t : Str) : typos (p ++ s) (p ++ t) = typos s t := by
  induction p with
  | nil => rfl
  | cons c p ih => rw [List.cons_append, List.cons_append, typos, if_pos rfl, Nat.zero_add, ih]

theorem fromBech32_some {h s : Str} {bs : List Nat} (e : fromBech32 h s = some bs) :
    decode s = some (h, bs) ∧ 1 ≤ bs.length ∧ bs.length ≤ 255 := by
  unfold fromBech32 at e
  split at e
  · cases e
  · rename_i h' bs' hd
    split at e
    · rename_i hc
      injection e with e; subst e
      obtain ⟨rfl, h1, h2⟩ := hc
      exact ⟨hd, h1, h2⟩
    · cases e

/-- **C74.**  If account text is accepted, text of the same length with one or two wrong
characters (of any kind, anywhere; letters compared without their case) is rejected.  The same
for validator text. -/
theorem typos_detected {h s t : Str} {a : List Nat} (hs : fromBech32 h s = some a)
    (hlen : s.length = t.length) (h1 : 1 ≤ typos (s.map lower) (t.map lower))
    (h2 : typos (s.map lower) (t.map lower) ≤ 2) : fromBech32 h t = none := by
  cases ht : fromBech32 h t with
  | none => rfl
  | some b =>
    exfalso
    obtain ⟨ds, _, hs255⟩ := fromBech32_some hs
    obtain ⟨dt, _, _⟩ := fromBech32_some ht
    obtain ⟨es, hba, _⟩ := encode_decode ds
    obtain ⟨et, hbb, _⟩ := encode_decode dt
    have hle : (s.map lower).length = (t.map lower).length := by
      rw [List.length_map, List.length_map, hlen]
    rw [es, et] at h1 h2 hle
    unfold encode at h1 h2 hle
    rw [typos_prefix, typos, if_pos rfl, Nat.zero_add] at h1 h2
    have hl : (toGroups a ++ checksum h (toGroups a)).length
        = (toGroups b ++ checksum h (toGroups b)).length := by
      simp only [List.length_append, List.length_cons, List.length_map] at hle ⊢
      omega
    obtain ⟨hw, hx⟩ := typos_weight _ _ hl (values_lt h a) (values_lt h b)
    rw [hw] at h1 h2
    have hca := (check_iff h (toGroups a) _ (checksum_length ..) (checksum_lt _ _)).mpr rfl
    have hcb := (check_iff h (toGroups b) _ (checksum_length ..) (checksum_lt _ _)).mpr rfl
    rw [polymod_append] at hca hcb
    have hd := polymod_diff _ _ (polymod 1#30 (hrpExpand h)) (polymod 1#30 (hrpExpand h)) hl
    rw [hca, hcb, BitVec.xor_self, BitVec.xor_self] at hd
    refine weight_small h1 h2 hx ?_ hd.symm
    rw [List.length_zipWith, hl, Nat.min_self, ← hl, List.length_append, checksum_length,
      toGroups_length]
    omega

/-! ## The chain's readers -/

theorem bytesToAddress_id {a : List Nat} (h : a.length = 20) : bytesToAddress a = a := by
  unfold bytesToAddress; rw [h]; rfl

theorem fromBech32_encode {h : Str} {a : List Nat} (hg : GoodPrefix h) (ha : IsAddress a) :
    fromBech32 h (encode h a) = some a := by
  unfold fromBech32
  rw [decode_encode hg ha.2]
  dsimp only
  rw [if_pos ⟨rfl, by rw [ha.1]; decide, by rw [ha.1]; decide⟩]

theorem contains_prefix {pat s t : Str} : contains pat t = true → contains pat (s ++ t) = true := by
  intro h
  induction s with
  | nil => exact h
  | cons c s ih => rw [List.cons_append, contains, ih, Bool.or_true]

theorem isPrefixOf_append {pat s : Str} (t : Str) (h : pat.isPrefixOf s = true) :
    pat.isPrefixOf (s ++ t) = true := by
  rw [List.isPrefixOf_iff_prefix] at h ⊢
  exact List.IsPrefix.trans h (List.prefix_append ..)

theorem contains_suffix {pat : Str} : ∀ {s : Str} (t : Str), contains pat s = true →
    contains pat (s ++ t) = true
  | [], t, h => by
    have h1 : pat.isPrefixOf ([] ++ t) = true := isPrefixOf_append t h
    cases t with
    | nil => exact h
    | cons c t => rw [List.nil_append] at h1 ⊢; rw [contains, h1, Bool.true_or]
  | c :: s, t, h => by
    rw [contains, Bool.or_eq_true] at h
    rw [List.cons_append, contains, Bool.or_eq_true]
    rcases h with h | h
    · exact Or.inl (isPrefixOf_append t h)
    · exact Or.inr (contains_suffix t h)

/-- **C74.**  Validator text is read as the address it was written from. -/
theorem any_val {a : List Nat} (ha : IsAddress a) : anyToHex (valString a) = a := by
  unfold anyToHex
  have : contains valText (valString a) = true :=
    contains_suffix _ (by decide +kernel : contains valText valHrp = true)
  rw [if_pos this, valString, fromBech32_encode valHrp_good ha]
  exact bytesToAddress_id ha.1

/-- **C74, the part that holds.**  Account text is read as the account it was written from, if
it does not contain the letters `val`. -/
theorem any_acc_partial {a : List Nat} (ha : IsAddress a)
    (hv : contains valText (accString a) = false) : anyToHex (accString a) = a := by
  unfold anyToHex hexAddressFromBech32
  rw [hv, accString, fromBech32_encode accHrp_good ha]
  exact bytesToAddress_id ha.1

/-- Account text is never accepted as validator text. -/
theorem val_of_acc {a : List Nat} (ha : AreBytes a) : fromBech32 valHrp (accString a) = none := by
  unfold fromBech32
  rw [accString, decode_encode accHrp_good ha]
  dsimp only
  rw [if_neg (fun h => absurd h.1 (by decide +kernel))]

/-- Text starting like an account is not hexadecimal at all. -/
theorem hex_of_acc (a : List Nat) : hexToAddress (accString a) = List.replicate 20 0 := by
  have : ∀ t : Str, fromHex (104 :: t) = [] := by
    intro t
    show hexBytes (evenHex (104 :: t)) = []
    unfold evenHex
    split
    · cases t <;> rfl
    · cases t <;> rfl
  unfold hexToAddress accString encode
  rw [show accHrp = 104 :: str "elios" from rfl, List.cons_append, this]
  rfl

/-- **C74, where it fails.**  Account text that contains the letters `val` is read as the zero
address. -/
theorem any_acc_zero {a : List Nat} (ha : IsAddress a)
    (hv : contains valText (accString a) = true) : anyToHex (accString a) = List.replicate 20 0 := by
  unfold anyToHex
  rw [if_pos hv, val_of_acc ha.2]
  exact hex_of_acc a

/-- **C74.**  Account text is read correctly if and only if it does not contain `val`. -/
theorem any_acc_iff {a : List Nat} (ha : IsAddress a) :
    anyToHex (accString a) = a ↔ contains valText (accString a) = false := by
  constructor
  · intro h
    cases hv : contains valText (accString a)
    · rfl
    · rw [any_acc_zero ha hv] at h
      rw [← h] at hv
      exact absurd hv (by decide +kernel)
  · exact any_acc_partial ha

theorem hexValue_digit (up : Bool) : ∀ d < 16, hexValue (hexDigit up d) = some d := by
  cases up <;> decide +kernel

theorem hexBytes_text (up : Nat → Bool) : ∀ (bs : List Nat) (i : Nat), (∀ b ∈ bs, b < 256) →
    hexBytes (hexText up i bs) = bs
  | [], _, _ => rfl
  | b :: bs, i, h => by
    have hb := h b List.mem_cons_self
    rw [hexText, hexBytes, hexValue_digit _ _ (by omega), hexValue_digit _ _ (by omega)]
    dsimp only
    rw [hexBytes_text up bs (i + 2) (fun x hx => h x (List.mem_cons_of_mem _ hx))]
    congr 1
    omega

theorem hexText_length (up : Nat → Bool) : ∀ (bs : List Nat) (i : Nat),
    (hexText up i bs).length = 2 * bs.length
  | [], _ => rfl
  | b :: bs, i => by
    rw [hexText, List.length_cons, List.length_cons, hexText_length up bs, List.length_cons]; omega

theorem hexDigit_ne_v (up : Bool) (d : Nat) (h : d < 16) : hexDigit up d ≠ 118 := by
  unfold hexDigit
  split
  · omega
  · split <;> omega

theorem hexText_ne_v (up : Nat → Bool) : ∀ (bs : List Nat) (i : Nat), (∀ b ∈ bs, b < 256) →
    118 ∉ hexText up i bs
  | [], _, _ => by intro h; cases h
  | b :: bs, i, h => by
    have hb := h b List.mem_cons_self
    intro hm
    rw [hexText] at hm
    rcases List.mem_cons.mp hm with hm | hm
    · exact hexDigit_ne_v _ _ (by omega) hm.symm
    · rcases List.mem_cons.mp hm with hm | hm
      · exact hexDigit_ne_v _ _ (by omega) hm.symm
      · exact hexText_ne_v up bs (i + 2) (fun x hx => h x (List.mem_cons_of_mem _ hx)) hm

theorem contains_val_false : ∀ {s : Str}, 118 ∉ s → contains valText s = false
  | [], _ => rfl
  | c :: s, h => by
    rw [contains, contains_val_false (fun hm => h (List.mem_cons_of_mem _ hm)), Bool.or_false]
    show (118 == c && _) = false
    have : (118 == c) = false := by
      rw [beq_eq_false_iff_ne]; intro e; exact h (by rw [e]; exact List.mem_cons_self)
    rw [this, Bool.false_and]

/-- **C74.**  Hexadecimal text is read as the address it was written from, whatever the case of
its letters. -/
theorem any_hex {a : List Nat} (up : Nat → Bool) (ha : IsAddress a) :
    anyToHex (hexString up a) = a := by
  have hv : contains valText (hexString up a) = false := contains_val_false (by
    intro hm
    rcases List.mem_cons.mp hm with hm | hm
    · cases hm
    · rcases List.mem_cons.mp hm with hm | hm
      · cases hm
      · exact hexText_ne_v up a 0 ha.2 hm)
  have hn : fromBech32 accHrp (hexString up a) = none := by
    cases h : fromBech32 accHrp (hexString up a) with
    | none => rfl
    | some b =>
      obtain ⟨hd, _⟩ := fromBech32_some h
      have he := (encode_decode hd).1
      have := congrArg (fun l : List Nat => l.head?) he
      exact absurd this (by
        show ¬ (some 48 = some 104)
        decide)
  have hx : hexToAddress (hexString up a) = a := by
    unfold hexToAddress hexString
    show bytesToAddress (hexBytes (evenHex (hexText up 0 a))) = a
    unfold evenHex
    rw [if_neg (by rw [hexText_length]; omega), hexBytes_text up a 0 ha.2]
    exact bytesToAddress_id ha.1
  unfold anyToHex hexAddressFromBech32
  rw [hv, hn]
  exact hx

/-! ## Counterexamples -/

/-- The address of the scheduled call number 1280: the first twenty bytes of the SHA-256 hash of
`cron_1280` (`/repo/helios-chain/x/chronos/keeper/msg_server.go` line 69). -/
def cron1280 : List Nat :=
  [0x6f, 0x69, 0x46, 0x09, 0xae, 0x5a, 0x59, 0xdf, 0x95, 0x3f,
   0x5a, 0x1f, 0x62, 0x94, 0xa5, 0xed, 0x7c, 0x04, 0xad, 0x06]

/-- Another account. -/
def cron1636 : List Nat :=
  [0x86, 0x6f, 0x41, 0x0d, 0xa2, 0x7e, 0xcd, 0x56, 0x09, 0x9d,
   0xf9, 0x2f, 0x8f, 0xfc, 0x67, 0x85, 0x94, 0x76, 0x27, 0x12]

/-- An account without `val` in its text. -/
def plainAcc : List Nat := [1, 2, 3, 4, 5, 6, 7, 8, 9, 10, 11, 12, 13, 14, 15, 16, 17, 18, 19, 20]

example : accString cron1280 = str "helios1da55vzdwtfval9fltg0k9999a47qftgxxpwr95" := by decide +kernel

/-- **C74 is false as a whole**: not every account's text is read as that account. -/
theorem any_acc_fails : ¬ ∀ a, IsAddress a → anyToHex (accString a) = a := fun h =>
  absurd (h cron1280 (by decide +kernel)) (by decide +kernel)

/-- Different accounts are read as the same address. -/
theorem any_collides : ∃ a b, IsAddress a ∧ IsAddress b ∧ a ≠ b ∧
    anyToHex (accString a) = anyToHex (accString b) :=
  ⟨cron1280, cron1636, by decide +kernel, by decide +kernel, by decide +kernel, by decide +kernel⟩

/-- The check on messages that only the initializer of a bridged chain may send, e.g.
`/repo/helios-chain/x/hyperion/keeper/msg_server_helios.go` lines 379-381 and most of
`msg_server_testnet.go`: both texts go through `AnyToHexAddress`. -/
def isInitializer (initializer signer : Str) : Bool := anyToHex initializer == anyToHex signer

/-- **C74, the part that holds for the check.**  If neither text contains `val`, only the
initializer passes; its text may be hexadecimal or bech32. -/
theorem initializer_partial {a b : List Nat} (up : Nat → Bool) (ha : IsAddress a) (hb : IsAddress b)
    (hva : contains valText (accString a) = false) (hvb : contains valText (accString b) = false) :
    (isInitializer (accString a) (accString b) = true ↔ b = a) ∧
      (isInitializer (hexString up a) (accString b) = true ↔ b = a) := by
  unfold isInitializer
  rw [any_hex up ha, any_acc_partial ha hva, any_acc_partial hb hvb]
  exact ⟨by rw [beq_iff_eq]; exact eq_comm, by rw [beq_iff_eq]; exact eq_comm⟩

/-- Another account passes the check of the initializer. -/
theorem initializer_fails : ∃ a b, IsAddress a ∧ IsAddress b ∧ b ≠ a ∧
    isInitializer (accString a) (accString b) = true :=
  ⟨cron1280, cron1636, by decide +kernel, by decide +kernel, by decide +kernel, by decide +kernel⟩

/-! ## Concrete cases -/

example : IsAddress plainAcc ∧ contains valText (accString plainAcc) = false ∧
    anyToHex (accString plainAcc) = plainAcc := by decide +kernel

example : anyToHex (hexString (fun i => i % 3 == 0) cron1280) = cron1280 := by decide +kernel

example : anyToHex (valString cron1280) = cron1280 := by decide +kernel

/-- Reading also works in capitals, and mixed case is refused. -/
example : fromBech32 accHrp (str "HELIOS1DA55VZDWTFVAL9FLTG0K9999A47QFTGXXPWR95") = some cron1280 ∧
    fromBech32 accHrp (str "hELIOS1DA55VZDWTFVAL9FLTG0K9999A47QFTGXXPWR95") = none := by decide +kernel

/-- Two wrong characters. -/
example : typos (str "helios1da55vzdwtfval9fltg0k9999a47qftgxxpwr95")
    (str "helios1da55vzdwtfval9fltg0k9999a47qftgxxpwr59") = 2 ∧
    typos (str "helios1da55vzdwtfval9fltg0k9999a47qftgxxpwr95")
    (str "helios1ad55vzdwtfval9fltg0k9999a47qftgxxpwr95") = 2 ∧
    fromBech32 accHrp (str "helios1ad55vzdwtfval9fltg0k9999a47qftgxxpwr95") = none := by decide +kernel

end Addr
