import Verif.Typed.DataLemmas
/-!
# The encoding of a value determines the value
-/
namespace Typed

/-! ## The types of valid fields -/

/-- Letters, digits and `_` only. -/
def Plain (u : Bytes) : Prop := ∀ c ∈ u, isWord c = true

theorem isWord_ne {c : UInt8} (h : isWord c = true) :
    c ≠ 0x20 ∧ c ≠ 0x28 ∧ c ≠ 0x29 ∧ c ≠ 0x2c ∧ c ≠ 0x5b ∧ c ≠ 0x5d := by
  refine ⟨?_, ?_, ?_, ?_, ?_, ?_⟩ <;> (rintro rfl; exact absurd h (by decide))

theorem clean_of_plain {u : Bytes} (h : Plain u) : Clean u := by
  intro c hc
  obtain ⟨a, b, d, e, _⟩ := isWord_ne (h c hc)
  exact ⟨a, b, d, e⟩

theorem primitives_plain : ∀ e ∈ primitives, Plain e.1 := by
  have h : primitives.all (fun e => e.1.all isWord) = true := by decide +kernel
  intro e he c hc
  exact List.all_eq_true.1 (List.all_eq_true.1 h e he) c hc

theorem trim_cases (t : Bytes) : t = trim t ++ txt "[]" ∨ trim t = t := by
  unfold trim
  split
  · rename_i h
    left
    rw [← h, List.take_append_drop]
  · right
    rfl

theorem isUpper_isWord {c : UInt8} (h : isUpper c = true) : isWord c = true := by
  unfold isWord
  rw [h]
  rfl

theorem fieldOk_plain {ts : Types} {key : Bytes} {f : Field} (h : fieldOk ts key f = true) : Plain (trim f.type) := by
  unfold fieldOk at h
  rw [Bool.and_eq_true] at h
  have h := h.2
  split at h
  · rw [Bool.and_eq_true] at h
    have h := h.2
    unfold isReference at h
    split at h
    · cases h
    · rename_i c cs heq
      rw [heq]
      rw [Bool.and_eq_true] at h
      intro x hx
      rcases List.mem_cons.1 hx with rfl | hx
      · exact isUpper_isWord h.1
      · exact List.all_eq_true.1 h.2 x hx
  · cases hg : KV.get primitives (trim f.type) with
    | none => rw [hg] at h; cases h
    | some w =>
      intro c hc
      exact primitives_plain _ (KV.mem_of_get hg) c hc

/-- A valid type is a plain name, or a plain name followed by `[]`. -/
theorem fieldOk_shape {ts : Types} {key : Bytes} {f : Field} (h : fieldOk ts key f = true) :
    Plain (trim f.type) ∧ Clean f.type ∧
    ((isArr f.type = true ∧ elemOf f.type = trim f.type) ∨ (isArr f.type = false ∧ f.type = trim f.type)) := by
  have hp := fieldOk_plain h
  refine ⟨hp, ?_⟩
  rcases trim_cases f.type with hc | hc
  · refine ⟨?_, .inl ⟨?_, ?_⟩⟩
    · rw [hc]
      intro c hm
      rcases List.mem_append.1 hm with hm | hm
      · exact clean_of_plain hp c hm
      · have : c = 0x5b ∨ c = 0x5d := by
          have e : txt "[]" = [0x5b, 0x5d] := by decide
          rw [e] at hm
          rcases List.mem_cons.1 hm with hm | hm
          · exact .inl hm
          · exact .inr (List.mem_singleton.1 hm)
        rcases this with rfl | rfl <;> decide
    · unfold isArr
      rw [hc]
      have e : txt "[]" = [0x5b, 0x5d] := by decide
      rw [e, List.getLast?_append]
      rfl
    · have e : txt "[]" = 0x5b :: [0x5d] := by decide
      unfold elemOf
      rw [hc, e]
      have key : ∀ u : Bytes, Plain u → (u ++ 0x5b :: [0x5d]).takeWhile (fun c => decide (c ≠ 0x5b)) = u := by
        intro u hu
        induction u with
        | nil => rfl
        | cons c cs ih =>
          have := (isWord_ne (hu c List.mem_cons_self)).2.2.2.2.1
          rw [List.cons_append, List.takeWhile_cons, if_pos (by simpa using this), ih (fun x hx => hu x (List.mem_cons_of_mem _ hx))]
      rw [key _ hp]
      have : trim (trim f.type ++ [0x5b, 0x5d]) = trim f.type := by
        have e' : (trim f.type ++ [0x5b, 0x5d]) = f.type := by rw [← e]; exact hc.symm
        rw [e']
      exact this.symm
  · refine ⟨hc ▸ clean_of_plain hp, .inr ⟨?_, hc.symm⟩⟩
    unfold isArr
    rw [decide_eq_false_iff_not]
    intro hl
    have hm : (0x5d : UInt8) ∈ f.type := List.mem_of_getLast? hl
    rw [← hc] at hm
    exact (isWord_ne (hp _ hm)).2.2.2.2.2 rfl

theorem valid_field {ts : Types} (hv : valid ts = true) {d : Bytes} {f : Field} (hf : f ∈ fieldsOf ts d) :
    fieldOk ts d f = true ∧ ∃ fs, (d, fs) ∈ ts ∧ f ∈ fs := by
  unfold fieldsOf at hf
  cases hg : KV.get ts d with
  | none => rw [hg] at hf; cases hf
  | some fs =>
    rw [hg] at hf
    have hm := KV.mem_of_get hg
    have := List.all_eq_true.1 hv _ hm
    rw [Bool.and_eq_true] at this
    exact ⟨List.all_eq_true.1 this.2 f hf, fs, hm, hf⟩

/-! ## Two tables that agree -/

/-- Two tables have the same types with the same fields, for a list of types that is complete in both. -/
structure Agree (ts ts' : Types) (D : List Bytes) : Prop where
  fields : ∀ d ∈ D, fieldsOf ts d = fieldsOf ts' d
  here : ∀ d ∈ D, (KV.get ts d).isSome
  there : ∀ d ∈ D, (KV.get ts' d).isSome
  closed : ∀ d ∈ D, ∀ f ∈ fieldsOf ts d, (KV.get ts (trim f.type)).isSome → trim f.type ∈ D
  closed' : ∀ d ∈ D, ∀ f ∈ fieldsOf ts d, (KV.get ts' (trim f.type)).isSome → trim f.type ∈ D

theorem listed_clean {ts : Types} (hv : valid ts = true) (hc : CleanTable ts) {p : Bytes} (htp : trim p = p)
    (hp : (KV.get ts p).isSome) (hpc : Clean p) :
    ∀ d ∈ listed ts p, Clean d ∧ ∀ f ∈ fieldsOf ts d, CleanField f := by
  obtain ⟨_, _, _, h4⟩ := listed_spec htp hp
  intro d hd
  constructor
  · rcases h4 d hd with rfl | ⟨e, he, f, hf, rfl⟩
    · exact hpc
    · have := List.all_eq_true.1 hv _ he
      rw [Bool.and_eq_true] at this
      exact clean_of_plain (fieldOk_plain (List.all_eq_true.1 this.2 f hf))
  · intro f hf
    obtain ⟨h1, fs, hm, hf'⟩ := valid_field hv hf
    exact ⟨(fieldOk_shape h1).2.1, (hc _ hm).2 f hf'⟩

theorem encodeType_eq (ts : Types) (p : Bytes) :
    encodeType ts p = (((listed ts p).map (fun d => (d, fieldsOf ts d))).map (fun e => blockText e.1 e.2)).flatten := by
  unfold encodeType
  rw [List.map_map]
  rfl

/-- The text of a type determines the types it uses. -/
theorem agree_of_text {ts ts' : Types} {p : Bytes} (hv : valid ts = true) (hv' : valid ts' = true)
    (hc : CleanTable ts) (hc' : CleanTable ts') (htp : trim p = p) (hpc : Clean p)
    (hp : (KV.get ts p).isSome) (hp' : (KV.get ts' p).isSome) (h : encodeType ts p = encodeType ts' p) :
    Agree ts ts' (listed ts p) ∧ p ∈ listed ts p := by
  obtain ⟨⟨o, ho⟩, a2, a3, _⟩ := listed_spec htp hp
  obtain ⟨_, b2, b3, _⟩ := listed_spec htp hp'
  have c1 := listed_clean hv hc htp hp hpc
  have c2 := listed_clean hv' hc' htp hp' hpc
  rw [encodeType_eq, encodeType_eq] at h
  have hl := blocks_inj (by
      intro e he
      obtain ⟨d, hd, rfl⟩ := List.mem_map.1 he
      exact c1 d hd) (by
      intro e he
      obtain ⟨d, hd, rfl⟩ := List.mem_map.1 he
      exact c2 d hd) h
  have hnames : listed ts p = listed ts' p := by
    have := congrArg (List.map Prod.fst) hl
    rw [List.map_map, List.map_map] at this
    simpa [Function.comp_def] using this
  have hfields : ∀ d ∈ listed ts p, fieldsOf ts d = fieldsOf ts' d := by
    rw [← hnames] at hl
    intro d hd
    have := List.map_inj_left.1 hl d hd
    exact (Prod.mk.inj this).2
  refine ⟨⟨hfields, a2, fun d hd => b2 d (hnames ▸ hd), a3, ?_⟩, by rw [ho]; exact List.mem_cons_self⟩
  intro d hd f hf hs
  rw [hfields d hd] at hf
  rw [hnames] at hd ⊢
  exact b3 d hd f hf hs

/-! ## Words -/

theorem word_length (n : Int) : (word n).length = 32 := by
  unfold word Bytes.be
  rw [List.length_reverse]
  exact Bytes.le_length _ _

theorem flatten_inj {l l' : List Bytes} (h : ∀ w ∈ l, w.length = 32) (h' : ∀ w ∈ l', w.length = 32)
    (he : l.flatten = l'.flatten) : l = l' := by
  induction l generalizing l' with
  | nil =>
    cases l' with
    | nil => rfl
    | cons w ws =>
      rw [List.flatten_cons] at he
      have := congrArg List.length he
      rw [List.length_append, h' w List.mem_cons_self] at this
      simp at this
      omega
  | cons w ws ih =>
    cases l' with
    | nil =>
      rw [List.flatten_cons] at he
      have := congrArg List.length he
      rw [List.length_append, h w List.mem_cons_self] at this
      simp at this
    | cons w' ws' =>
      rw [List.flatten_cons, List.flatten_cons] at he
      obtain ⟨e1, e2⟩ := List.append_inj he (by rw [h w List.mem_cons_self, h' w' List.mem_cons_self])
      rw [e1, ih (fun x hx => h x (List.mem_cons_of_mem _ hx)) (fun x hx => h' x (List.mem_cons_of_mem _ hx)) e2]

theorem word_mod {m n : Int} (h : word m = word n) : m % (2 ^ 256 : Int) = n % (2 ^ 256 : Int) := by
  unfold word at h
  have p : (0 : Int) < 2 ^ 256 := by decide
  have a1 := Int.emod_nonneg m (Int.ne_of_gt p)
  have a2 := Int.emod_lt_of_pos m p
  have b1 := Int.emod_nonneg n (Int.ne_of_gt p)
  have b2 := Int.emod_lt_of_pos n p
  have e : (256 : Nat) ^ 32 = 2 ^ 256 := by decide
  have lt : ∀ z : Int, 0 ≤ z → z < 2 ^ 256 → z.toNat < 256 ^ 32 := by
    intro z hz hz'
    rw [e]
    exact (Int.toNat_lt hz).2 (by exact_mod_cast hz')
  have := Bytes.be_inj (lt _ a1 a2) (lt _ b1 b2) h
  have h' := congrArg (Int.ofNat) this
  rw [← Int.toNat_of_nonneg a1, ← Int.toNat_of_nonneg b1]
  exact h'

/-- Numbers within the bounds of the types are told apart by their words. -/
theorem word_inj {m n : Int} {s : Bool} {w : Nat} (hw : s = true → w ≤ 255) (hw' : w ≤ 256)
    (hm : m.natAbs < 2 ^ w ∧ (s = true ∨ 0 ≤ m)) (hn : n.natAbs < 2 ^ w ∧ (s = true ∨ 0 ≤ n))
    (h : word m = word n) : m = n := by
  have hmod := word_mod h
  have hd : (2 ^ 256 : Int) ∣ m - n := Int.dvd_of_emod_eq_zero (by rw [Int.sub_emod, hmod, Int.sub_self, Int.zero_emod])
  have habs : (m - n).natAbs < 2 ^ 256 := by
    rcases hs : s with _ | _
    · have m0 : 0 ≤ m := hm.2.resolve_left (by rw [hs]; decide)
      have n0 : 0 ≤ n := hn.2.resolve_left (by rw [hs]; decide)
      have le : (2 : Nat) ^ w ≤ 2 ^ 256 := Nat.pow_le_pow_right (by decide) hw'
      have a := Nat.lt_of_lt_of_le hm.1 le
      have b := Nat.lt_of_lt_of_le hn.1 le
      generalize (2 : Nat) ^ 256 = X at a b ⊢
      omega
    · have le : (2 : Nat) ^ w ≤ 2 ^ 255 := Nat.pow_le_pow_right (by decide) (hw hs)
      have a := Nat.lt_of_lt_of_le hm.1 le
      have b := Nat.lt_of_lt_of_le hn.1 le
      have e : (2 : Nat) ^ 256 = 2 * 2 ^ 255 := by decide
      rw [e]
      generalize (2 : Nat) ^ 255 = X at a b ⊢
      omega
  have : m - n = 0 := by
    obtain ⟨k, hk⟩ := hd
    by_cases hk0 : k = 0
    · rw [hk, hk0, Int.mul_zero]
    · exfalso
      have : (m - n).natAbs = 2 ^ 256 * k.natAbs := by
        rw [hk, Int.natAbs_mul]
        rfl
      have k1 : 1 ≤ k.natAbs := by omega
      have := Nat.mul_le_mul_left (2 ^ 256) k1
      omega
  omega

/-! ## Values -/

theorem allSome_length {α β : Type} {f : α → Option β} : ∀ {l : List α} {r : List β}, allSome f l = some r →
    r.length = l.length
  | [], r, h => by cases h; rfl
  | x :: xs, r, h => by
    unfold allSome at h
    split at h
    · rename_i y ys h1 h2
      cases h
      rw [List.length_cons, List.length_cons, allSome_length h2]
    · cases h

theorem allSome_get {α β : Type} {f : α → Option β} : ∀ {l : List α} {r : List β}, allSome f l = some r →
    ∀ (i : Nat) (x : α), l[i]? = some x → ∃ y, r[i]? = some y ∧ f x = some y
  | [], r, h => by intro i x hx; simp at hx
  | a :: as, r, h => by
    unfold allSome at h
    split at h
    · rename_i y ys h1 h2
      cases h
      intro i x hx
      cases i with
      | zero =>
        rw [List.getElem?_cons_zero] at hx
        cases hx
        exact ⟨y, rfl, h1⟩
      | succ i =>
        rw [List.getElem?_cons_succ] at hx
        obtain ⟨z, hz, hz'⟩ := allSome_get h2 i x hx
        exact ⟨z, by rw [List.getElem?_cons_succ]; exact hz, hz'⟩
    · cases h

theorem allSome_all {α β : Type} {f : α → Option β} {P : β → Prop} (hf : ∀ x y, f x = some y → P y) :
    ∀ {l : List α} {r : List β}, allSome f l = some r → ∀ y ∈ r, P y
  | [], r, h => by cases h; intro y hy; cases hy
  | a :: as, r, h => by
    unfold allSome at h
    split at h
    · rename_i y ys h1 h2
      cases h
      intro z hz
      rcases List.mem_cons.1 hz with rfl | hz
      · exact hf a _ h1
      · exact allSome_all hf h2 z hz
    · cases h

theorem structHash_some {K : Bytes → Option Bytes} {e : Option (List Bytes)} {h : Bytes}
    (hh : structHash K e = some h) : ∃ ws, e = some ws ∧ K ws.flatten = some h := by
  unfold structHash at hh
  split at hh
  · cases hh
  · exact ⟨_, rfl, hh⟩

section
variable {K : Bytes → Option Bytes} {pb : Bytes → Option Int}

theorem encPrim_length (hw : Wide K) {t : Bytes} {v : J} {h : Bytes} (hh : encPrim K pb t v = some h) :
    h.length = 32 := by
  unfold encPrim at hh
  split at hh
  · split at hh
    · cases hh
      exact word_length _
    · cases hh
  · split at hh
    · split at hh
      · exact hw _ _ hh
      · cases hh
    · split at hh
      · rename_i s w _
        cases hp : parseInt pb s w v with
        | none => rw [hp] at hh; cases hh
        | some n =>
          rw [hp] at hh
          cases hh
          exact word_length _
      · cases hh

theorem encOne_length (hw : Wide K) {ts : Types} {rec : Bytes → List (Bytes × J) → Option (List Bytes)} {t : Bytes}
    {v : J} {h : Bytes} (hh : encOne K pb ts rec t v = some h) : h.length = 32 := by
  unfold encOne at hh
  split at hh
  · split at hh
    · obtain ⟨ws, _, h2⟩ := structHash_some hh
      exact hw _ _ h2
    · cases hh
  · exact encPrim_length hw hh

theorem encField_length (hw : Wide K) {ts : Types} {rec : Bytes → List (Bytes × J) → Option (List Bytes)}
    {data : List (Bytes × J)} {f : Field} {h : Bytes} (hh : encField K pb ts rec data f = some h) : h.length = 32 := by
  unfold encField at hh
  split at hh
  · cases hh
  · split at hh
    · split at hh
      · obtain ⟨ws, _, h2⟩ := structHash_some hh
        exact hw _ _ h2
      · cases hh
    · exact encOne_length hw hh

/-- What an encoding says. -/
theorem encData_some {ts : Types} {n : Nat} {p : Bytes} {data : List (Bytes × J)} {ws : List Bytes}
    (h : encData K pb ts n p data = some ws) : ∃ m th fs, n = m + 1 ∧ ws = th :: fs ∧
      data.length ≤ (fieldsOf ts p).length ∧ K (encodeType ts p) = some th ∧
      allSome (encField K pb ts (encData K pb ts m) data) (fieldsOf ts p) = some fs := by
  cases n with
  | zero => cases h
  | succ m =>
    unfold encData at h
    split at h
    · cases h
    · rename_i hl
      split at h
      · rename_i th fs h1 h2
        cases h
        exact ⟨m, th, fs, rfl, rfl, Nat.le_of_not_lt hl, h1, h2⟩
      · cases h

theorem encData_length (hw : Wide K) {ts : Types} {n : Nat} {p : Bytes} {data : List (Bytes × J)} {ws : List Bytes}
    (h : encData K pb ts n p data = some ws) : ∀ w ∈ ws, w.length = 32 := by
  obtain ⟨m, th, fs, _, rfl, _, h1, h2⟩ := encData_some h
  intro w hwm
  rcases List.mem_cons.1 hwm with rfl | hwm
  · exact hw _ _ h1
  · exact allSome_all (P := fun w => w.length = 32) (fun x y hy => encField_length hw hy) h2 w hwm

theorem primitives_width : ∀ e ∈ primitives, ∀ s w, e.2 = some (s, w) → (s = true → w ≤ 255) ∧ w ≤ 256 := by
  have h : primitives.all (fun e => match e.2 with
      | none => true
      | some (s, w) => (!s || decide (w ≤ 255)) && decide (w ≤ 256)) = true := by decide +kernel
  intro e he s w hs
  have := List.all_eq_true.1 h e he
  rw [hs] at this
  dsimp only at this
  rw [Bool.and_eq_true, decide_eq_true_iff] at this
  refine ⟨?_, this.2⟩
  intro hst
  have h1 := this.1
  rw [hst] at h1
  simpa using h1

theorem parseInt_some {s : Bool} {w : Nat} {v : J} {n : Int} (h : parseInt pb s w v = some n) :
    intOf pb v = some n ∧ n.natAbs < 2 ^ w ∧ (s = true ∨ 0 ≤ n) := by
  unfold parseInt at h
  split at h
  · cases h
  · rename_i m hm
    split at h
    · rename_i hc
      cases h
      exact ⟨hm, hc⟩
    · cases h

theorem intOf_some {v : J} {n : Int} (h : intOf pb v = some n) : v = .num n ∨ ∃ s, v = .str s ∧ pb s = some n := by
  unfold intOf at h
  split at h
  · cases h
    exact .inl rfl
  · exact .inr ⟨_, rfl, h⟩
  · cases h

theorem encPrim_inj (hn : NoCollision K) {t : Bytes} {v v' : J} {h : Bytes} (h1 : encPrim K pb t v = some h)
    (h2 : encPrim K pb t v' = some h) : Alike pb v v' := by
  unfold encPrim at h1 h2
  by_cases hb : t = txt "bool"
  · rw [if_pos hb] at h1 h2
    cases v <;> try cases h1
    cases v' <;> try cases h2
    rename_i b b'
    have e : word (if b then 1 else 0) = word (if b' then 1 else 0) := by
      exact (Option.some.inj h2).symm
    have : b = b' := by
      have := word_mod e
      cases b <;> cases b' <;> first | rfl | exact absurd this (by decide)
    rw [this]
    exact .bool _
  · rw [if_neg hb] at h1 h2
    by_cases hs : t = txt "string"
    · rw [if_pos hs] at h1 h2
      cases v <;> try cases h1
      cases v' <;> try cases h2
      rename_i a b
      have : a = b := hn _ _ _ h1 h2
      rw [this]
      exact .str _
    · rw [if_neg hs] at h1 h2
      cases hg : KV.get primitives t with
      | none => rw [hg] at h1; cases h1
      | some o =>
        cases o with
        | none => rw [hg] at h1; cases h1
        | some sw =>
          obtain ⟨s, w⟩ := sw
          rw [hg] at h1 h2
          dsimp only at h1 h2
          cases hp : parseInt pb s w v with
          | none => rw [hp] at h1; cases h1
          | some m =>
            cases hp' : parseInt pb s w v' with
            | none => rw [hp'] at h2; cases h2
            | some m' =>
              rw [hp] at h1
              rw [hp'] at h2
              have e : word m = word m' := by
                have a1 := Option.some.inj h1
                have a2 := Option.some.inj h2
                rw [a1, a2]
              obtain ⟨w1, w2⟩ := primitives_width _ (KV.mem_of_get hg) s w rfl
              obtain ⟨i1, r1⟩ := parseInt_some hp
              obtain ⟨i2, r2⟩ := parseInt_some hp'
              have := word_inj w1 w2 r1 r2 e
              subst this
              exact .int _ _ m (intOf_some i1) (intOf_some i2)

theorem encOne_inj (hn : NoCollision K) {ts ts' : Types}
    {rec rec' : Bytes → List (Bytes × J) → Option (List Bytes)} {t : Bytes} {v v' : J} {h : Bytes}
    (hsome : (KV.get ts t).isSome = (KV.get ts' t).isSome)
    (hrl : ∀ m ws, rec t m = some ws → ∀ w ∈ ws, w.length = 32)
    (hrl' : ∀ m ws, rec' t m = some ws → ∀ w ∈ ws, w.length = 32)
    (hrec : (KV.get ts t).isSome = true → ∀ m m' ws, v = .obj m → v' = .obj m' → rec t m = some ws → rec' t m' = some ws →
      Alike pb (.obj m) (.obj m'))
    (h1 : encOne K pb ts rec t v = some h) (h2 : encOne K pb ts' rec' t v' = some h) : Alike pb v v' := by
  unfold encOne at h1 h2
  rw [← hsome] at h2
  by_cases hs : (KV.get ts t).isSome = true
  · rw [if_pos hs] at h1 h2
    cases v <;> try cases h1
    cases v' <;> try cases h2
    rename_i m m'
    obtain ⟨ws, e1, k1⟩ := structHash_some h1
    obtain ⟨ws', e2, k2⟩ := structHash_some h2
    have := flatten_inj (hrl m ws e1) (hrl' m' ws' e2) (hn _ _ _ k1 k2)
    subst this
    exact hrec hs m m' ws rfl rfl e1 e2
  · rw [if_neg hs] at h1 h2
    exact encPrim_inj hn h1 h2

/-- Every key of a value is a field of its type: nothing in it is left out. -/
theorem keys_covered {ts : Types} (hc : CleanTable ts) {p : Bytes} {data : List (Bytes × J)}
    (hl : data.length ≤ (fieldsOf ts p).length) (hall : ∀ f ∈ fieldsOf ts p, (KV.get data f.name).isSome) :
    ∀ k v, KV.get data k = some v → ∃ f ∈ fieldsOf ts p, f.name = k := by
  intro k v hk
  have hnd : ((fieldsOf ts p).map Field.name).Nodup := by
    unfold fieldsOf
    cases hg : KV.get ts p with
    | none => exact List.nodup_nil
    | some fs => exact (hc _ (KV.mem_of_get hg)).1
  by_cases hm : k ∈ (fieldsOf ts p).map Field.name
  · obtain ⟨f, hf, h⟩ := List.mem_map.1 hm
    exact ⟨f, hf, h⟩
  · exfalso
    have hnd' : (k :: (fieldsOf ts p).map Field.name).Nodup := List.nodup_cons.2 ⟨hm, hnd⟩
    have hsub : ∀ x ∈ (k :: (fieldsOf ts p).map Field.name), x ∈ data.map (·.1) := by
      intro x hx
      rcases List.mem_cons.1 hx with rfl | hx
      · exact List.mem_map_of_mem (f := (·.1)) (KV.mem_of_get hk)
      · obtain ⟨f, hf, rfl⟩ := List.mem_map.1 hx
        obtain ⟨v, hv⟩ := Option.isSome_iff_exists.1 (hall f hf)
        exact List.mem_map_of_mem (f := (·.1)) (KV.mem_of_get hv)
    have := hnd'.length_le_of_subset hsub
    simp only [List.length_cons, List.length_map] at this
    omega

theorem encField_get {ts : Types} {rec : Bytes → List (Bytes × J) → Option (List Bytes)} {data : List (Bytes × J)}
    {f : Field} {h : Bytes} (hh : encField K pb ts rec data f = some h) :
    ∃ v, KV.get data f.name = some v ∧
      ((isArr f.type = true ∧ ∃ items, v = .arr items ∧
          structHash K (allSome (encOne K pb ts rec (elemOf f.type)) items) = some h) ∨
       (isArr f.type = false ∧ encOne K pb ts rec f.type v = some h)) := by
  unfold encField at hh
  split at hh
  · cases hh
  · rename_i v hv
    refine ⟨v, hv, ?_⟩
    split at hh
    · rename_i ha
      split at hh
      · exact .inl ⟨ha, _, rfl, hh⟩
      · cases hh
    · rename_i ha
      exact .inr ⟨by simpa using ha, hh⟩

/-- The encoding of a value determines the value. -/
theorem encData_inj (hn : NoCollision K) (hw : Wide K) {ts ts' : Types} {D : List Bytes} (ha : Agree ts ts' D)
    (hv : valid ts = true) (hc : CleanTable ts) (hc' : CleanTable ts') :
    ∀ (n n' : Nat) (p : Bytes) (data data' : List (Bytes × J)) (ws : List Bytes), p ∈ D →
      encData K pb ts n p data = some ws → encData K pb ts' n' p data' = some ws →
      Alike pb (.obj data) (.obj data') := by
  intro n
  induction n with
  | zero => intro n' p data data' ws hp h1; cases h1
  | succ n ih =>
    intro n' p data data' ws hp h1 h2
    obtain ⟨m, th, fs, hm, hws, hl, _, e1⟩ := encData_some h1
    obtain ⟨m', th', fs', _, hws', hl', _, e2⟩ := encData_some h2
    cases hm
    rw [hws] at hws'
    obtain ⟨_, hfs⟩ := List.cons.inj hws'
    subst hfs
    rw [← ha.fields p hp] at e2 hl'
    have point : ∀ f ∈ fieldsOf ts p, ∃ v v', KV.get data f.name = some v ∧ KV.get data' f.name = some v' ∧
        Alike pb v v' := by
      intro f hf
      obtain ⟨i, hi⟩ := List.mem_iff_getElem?.1 hf
      obtain ⟨y, y1, y2⟩ := allSome_get e1 i f hi
      obtain ⟨y', y1', y2'⟩ := allSome_get e2 i f hi
      rw [y1] at y1'
      cases y1'
      obtain ⟨v, gv, cv⟩ := encField_get y2
      obtain ⟨v', gv', cv'⟩ := encField_get y2'
      refine ⟨v, v', gv, gv', ?_⟩
      obtain ⟨hok, _⟩ := valid_field hv hf
      obtain ⟨_, _, hshape⟩ := fieldOk_shape hok
      have hsome : (KV.get ts (trim f.type)).isSome = (KV.get ts' (trim f.type)).isSome := by
        by_cases hx : (KV.get ts (trim f.type)).isSome = true
        · rw [hx, ha.there _ (ha.closed p hp f hf hx)]
        · by_cases hy : (KV.get ts' (trim f.type)).isSome = true
          · exact (hx (ha.here _ (ha.closed' p hp f hf hy))).elim
          · rw [Bool.not_eq_true] at hx hy
            rw [hx, hy]
      have one : ∀ {u u' : J} {g : Bytes},
          encOne K pb ts (encData K pb ts n) (trim f.type) u = some g →
          encOne K pb ts' (encData K pb ts' m') (trim f.type) u' = some g → Alike pb u u' := by
        intro u u' g g1 g2
        refine encOne_inj hn hsome (fun m ws h => encData_length hw h) (fun m ws h => encData_length hw h) ?_ g1 g2
        intro hs q q' ws' hq hq' r1 r2
        subst hq
        subst hq'
        exact ih m' (trim f.type) q q' ws' (ha.closed p hp f hf hs) r1 r2
      rcases cv with ⟨ca, items, rfl, ce⟩ | ⟨ca, ce⟩
      · rcases cv' with ⟨ca', items', rfl, ce'⟩ | ⟨ca', _⟩
        · have hel : elemOf f.type = trim f.type := by
            rcases hshape with h | h
            · exact h.2
            · rw [ca] at h; cases h.1
          rw [hel] at ce ce'
          obtain ⟨xs, x1, k1⟩ := structHash_some ce
          obtain ⟨xs', x1', k1'⟩ := structHash_some ce'
          have hx : xs = xs' := flatten_inj
            (allSome_all (P := fun w => w.length = 32) (fun _ _ hy => encOne_length hw hy) x1)
            (allSome_all (P := fun w => w.length = 32) (fun _ _ hy => encOne_length hw hy) x1') (hn _ _ _ k1 k1')
          subst hx
          refine .arr _ _ (by rw [← allSome_length x1, ← allSome_length x1']) ?_
          intro j u u' hu hu'
          obtain ⟨z, z1, z2⟩ := allSome_get x1 j u hu
          obtain ⟨z', z1', z2'⟩ := allSome_get x1' j u' hu'
          rw [z1] at z1'
          cases z1'
          exact one z2 z2'
        · rw [ca] at ca'; cases ca'
      · rcases cv' with ⟨ca', _⟩ | ⟨_, ce'⟩
        · rw [ca] at ca'; cases ca'
        · have hty : f.type = trim f.type := by
            rcases hshape with h | h
            · rw [ca] at h; cases h.1
            · exact h.2
          rw [hty] at ce ce'
          exact one ce ce'
    have cov := keys_covered hc hl (fun f hf => by
      obtain ⟨v, v', g, _⟩ := point f hf
      rw [g]; rfl)
    have cov' := keys_covered hc' (by rw [← ha.fields p hp]; exact hl') (fun f hf => by
      rw [← ha.fields p hp] at hf
      obtain ⟨v, v', _, g, _⟩ := point f hf
      rw [g]; rfl)
    refine .obj _ _ ?_ ?_
    · intro k
      cases hk : KV.get data k with
      | some v =>
        obtain ⟨f, hf, rfl⟩ := cov k v hk
        obtain ⟨_, _, _, g, _⟩ := point f hf
        rw [g]; rfl
      | none =>
        cases hk' : KV.get data' k with
        | none => rfl
        | some v' =>
          obtain ⟨f, hf, rfl⟩ := cov' k v' hk'
          rw [← ha.fields p hp] at hf
          obtain ⟨_, _, g, _⟩ := point f hf
          rw [hk] at g
          cases g
    · intro k v v' hk hk'
      obtain ⟨f, hf, rfl⟩ := cov k v hk
      obtain ⟨_, _, g, g', hal⟩ := point f hf
      rw [hk] at g
      rw [hk'] at g'
      cases g
      cases g'
      exact hal

end
end Typed
