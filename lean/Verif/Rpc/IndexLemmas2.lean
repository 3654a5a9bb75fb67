import Verif.Rpc.IndexLemmas
/-!
# Lemmas on the index: keys, look-ups and the last block
-/

namespace EthIndex

open Bytes (le unle be unbe)

/-! ## Keys -/

theorem le_length (w n : Nat) : (le w n).length = w := by
  induction w generalizing n with
  | zero => rfl
  | succ w ih => simp only [le, List.length_cons, ih]

theorem be_length (w n : Nat) : (be w n).length = w := by
  unfold be; rw [List.length_reverse, le_length]

theorem hashKey_inj {x y : Nat} (hx : x < 256 ^ 32) (hy : y < 256 ^ 32) (h : hashKey x = hashKey y) : x = y :=
  Bytes.be_inj hx hy (List.cons.inj h).2

theorem indexKey_inj {a b i j : Nat} (ha : a < 256 ^ 8) (hb : b < 256 ^ 8) (hi : i < 256 ^ 8) (hj : j < 256 ^ 8)
    (h : indexKey a i = indexKey b j) : a = b ∧ i = j := by
  have h' := (List.cons.inj h).2
  have := List.append_inj h' (by rw [be_length, be_length])
  exact ⟨Bytes.be_inj ha hb this.1, Bytes.be_inj hi hj this.2⟩

theorem hashKey_ne_indexKey (x a i : Nat) : hashKey x ≠ indexKey a i := fun h =>
  absurd (List.cons.inj h).1 (by decide)

/-! ## The order of keys -/

theorem unle_append (x : List UInt8) (a : UInt8) : unle (x ++ [a]) = unle x + 256 ^ x.length * a.toNat := by
  induction x with
  | nil => simp [unle]
  | cons c x ih =>
    rw [List.cons_append]
    simp only [unle, ih, List.length_cons, Nat.pow_succ]
    rw [Nat.mul_add, Nat.add_assoc]
    congr 2
    rw [← Nat.mul_assoc, Nat.mul_comm 256]

theorem unbe_cons (a : UInt8) (x : List UInt8) : unbe (a :: x) = unbe x + 256 ^ x.length * a.toNat := by
  unfold unbe
  rw [List.reverse_cons, unle_append, List.length_reverse]

theorem unbe_lt (x : List UInt8) : unbe x < 256 ^ x.length := by
  have := Bytes.unle_lt x.reverse
  rw [List.length_reverse] at this
  exact this

theorem lt_of_unbe (x : List UInt8) : ∀ (y : List UInt8), x.length = y.length → unbe x < unbe y → x < y := by
  induction x with
  | nil => intro y hl h; cases y with
    | nil => exact absurd h (Nat.lt_irrefl _)
    | cons b y => simp at hl
  | cons a x ih =>
    intro y hl h
    cases y with
    | nil => simp at hl
    | cons b y =>
      have hl' : x.length = y.length := by simpa using hl
      rw [unbe_cons, unbe_cons, hl'] at h
      rw [List.cons_lt_cons_iff]
      by_cases hab : a = b
      · subst hab
        exact .inr ⟨rfl, ih y hl' (by omega)⟩
      · refine .inl ?_
        rw [UInt8.lt_iff_toNat_lt]
        have hx := unbe_lt x
        have hy := unbe_lt y
        rw [hl'] at hx
        have hne : a.toNat ≠ b.toNat := fun e => hab (UInt8.toNat_inj.1 e)
        apply Nat.lt_of_not_le
        intro hle
        have hlt : b.toNat + 1 ≤ a.toNat := by omega
        have := Nat.mul_le_mul_left (256 ^ y.length) hlt
        rw [Nat.mul_add, Nat.mul_one] at this
        omega

theorem append_lt_append (x : List UInt8) : ∀ (y u v : List UInt8), x.length = y.length → x < y → x ++ u < y ++ v := by
  induction x with
  | nil => intro y u v hl h; cases y with
    | nil => exact absurd h (List.not_lt_nil _)
    | cons b y => simp at hl
  | cons a x ih =>
    intro y u v hl h
    cases y with
    | nil => simp at hl
    | cons b y =>
      rw [List.cons_lt_cons_iff] at h
      rw [List.cons_append, List.cons_append, List.cons_lt_cons_iff]
      rcases h with h | ⟨h, h'⟩
      · exact .inl h
      · exact .inr ⟨h, ih y u v (by simpa using hl) h'⟩

/-- Keys of later blocks come later. -/
theorem indexKey_lt {a b : Nat} (i j : Nat) (ha : a < 256 ^ 8) (hb : b < 256 ^ 8) (h : a < b) :
    indexKey a i < indexKey b j := by
  unfold indexKey
  rw [List.cons_lt_cons_iff]
  refine .inr ⟨rfl, append_lt_append _ _ _ _ (by rw [be_length, be_length]) ?_⟩
  refine lt_of_unbe _ _ (by rw [be_length, be_length]) ?_
  rw [Bytes.unbe_be 8 a ha, Bytes.unbe_be 8 b hb]
  exact h

theorem indexKey_range (a i : Nat) : [2] ≤ indexKey a i ∧ indexKey a i < [3] := by
  unfold indexKey
  constructor
  · rw [List.cons_le_cons_iff]
    exact .inr ⟨rfl, by simp⟩
  · rw [List.cons_lt_cons_iff]
    exact .inl (by decide)

theorem hashKey_range (x : Nat) : ¬ ([2] ≤ hashKey x ∧ hashKey x < [3]) := by
  intro ⟨h, _⟩
  unfold hashKey at h
  rw [List.cons_le_cons_iff] at h
  rcases h with h | ⟨h, _⟩
  · exact absurd h (by decide)
  · exact absurd h (by decide)

theorem blockOf_indexKey (a i : Nat) (ha : a < 256 ^ 8) : blockOf (indexKey a i) = some a := by
  unfold blockOf indexKey
  rw [if_neg (by rw [List.length_cons, List.length_append, be_length, be_length]; decide)]
  rw [List.drop_succ_cons, List.drop_zero, List.take_append_of_le_length (by rw [be_length]; decide)]
  rw [List.take_of_length_le (by rw [be_length]; decide), Bytes.unbe_be 8 a ha]

/-! ## The last block -/

theorem lastKey_none (db : DB) : lastKey db = none ↔ ∀ e ∈ db, ¬ ([2] ≤ e.1 ∧ e.1 < [3]) := by
  induction db with
  | nil => exact ⟨fun _ _ h => (List.not_mem_nil h).elim, fun _ => rfl⟩
  | cons e db ih =>
    unfold lastKey
    by_cases hr : [2] ≤ e.1 ∧ e.1 < [3]
    · rw [if_pos hr]
      constructor
      · intro h
        split at h
        · cases h
        · split at h <;> cases h
      · intro h; exact absurd hr (h e (.head _))
    · rw [if_neg hr, ih]
      constructor
      · intro h e' he'
        rcases List.mem_cons.1 he' with rfl | h'
        · exact hr
        · exact h e' h'
      · intro h e' he'; exact h e' (.tail _ he')

theorem lastKey_some (db : DB) : ∀ k, lastKey db = some k →
    (∃ v, (k, v) ∈ db) ∧ ([2] ≤ k ∧ k < [3]) ∧ ∀ e ∈ db, [2] ≤ e.1 ∧ e.1 < [3] → ¬ k < e.1 := by
  induction db with
  | nil => intro k h; cases h
  | cons e db ih =>
    intro k h
    obtain ⟨ek, ev⟩ := e
    unfold lastKey at h
    split at h
    · rename_i hr
      cases hl : lastKey db with
      | none =>
        rw [hl] at h
        dsimp only at h
        cases h
        refine ⟨⟨ev, .head _⟩, hr, ?_⟩
        intro e' he' hr'
        rcases List.mem_cons.1 he' with rfl | h'
        · exact List.lt_irrefl _
        · exact absurd hr' ((lastKey_none db).1 hl e' h')
      | some k' =>
        rw [hl] at h
        dsimp only at h
        obtain ⟨⟨v, hv⟩, hr2, hmax⟩ := ih k' hl
        split at h
        · rename_i hlt
          cases h
          refine ⟨⟨ev, .head _⟩, hr, ?_⟩
          intro e' he' hr' hlt'
          rcases List.mem_cons.1 he' with rfl | h'
          · exact List.lt_irrefl _ hlt'
          · exact hmax e' h' hr' (List.lt_trans hlt hlt')
        · rename_i hlt
          cases h
          refine ⟨⟨v, .tail _ hv⟩, hr2, ?_⟩
          intro e' he' hr'
          rcases List.mem_cons.1 he' with rfl | h'
          · exact hlt
          · exact hmax e' h' hr'
    · rename_i hr
      obtain ⟨⟨v, hv⟩, hr2, hmax⟩ := ih k h
      refine ⟨⟨v, .tail _ hv⟩, hr2, ?_⟩
      intro e' he' hr'
      rcases List.mem_cons.1 he' with rfl | h'
      · exact absurd hr' hr
      · exact hmax e' h' hr'

/-- Every key is of one of the two kinds. -/
def Shaped (db : DB) : Prop :=
  ∀ e ∈ db, (∃ x, e.1 = hashKey x) ∨ (∃ h i, e.1 = indexKey h i ∧ h < 256 ^ 8 ∧ i < 256 ^ 8)

theorem mem_key {db : DB} {k : List UInt8} : (∃ v, (k, v) ∈ db) ↔ KV.get db k ≠ none := by
  constructor
  · intro ⟨v, hv⟩ h; exact KV.get_eq_none.1 h _ hv rfl
  · intro h
    cases hg : KV.get db k with
    | none => exact absurd hg h
    | some v => exact ⟨v, KV.mem_of_get hg⟩

theorem lastBlock_none {db : DB} (hs : Shaped db) :
    lastBlock db = none ↔ ∀ h i, h < 256 ^ 8 → KV.get db (indexKey h i) = none := by
  have h1 : lastBlock db = none ↔ lastKey db = none := by
    unfold lastBlock
    cases hl : lastKey db with
    | none => exact ⟨fun _ => rfl, fun _ => rfl⟩
    | some k =>
      obtain ⟨⟨v, hv⟩, hr, _⟩ := lastKey_some db k hl
      rcases hs _ hv with ⟨x, hx⟩ | ⟨h, i, hx, hh, _⟩
      · dsimp only at hx; rw [hx] at hr; exact absurd hr (hashKey_range x)
      · dsimp only at hx ⊢
        rw [hx, blockOf_indexKey h i hh]
        exact ⟨(fun e => nomatch e), (fun e => nomatch e)⟩
  rw [h1, lastKey_none]
  constructor
  · intro h a i _
    apply KV.get_eq_none.2
    intro e he hk
    exact h e he (hk ▸ indexKey_range a i)
  · intro h e he hr
    rcases hs _ he with ⟨x, hx⟩ | ⟨a, i, hx, ha, _⟩
    · rw [hx] at hr; exact absurd hr (hashKey_range x)
    · exact KV.get_eq_none.1 (h a i ha) e he hx

theorem lastBlock_some {db : DB} (hs : Shaped db) {h : Nat} (hl : lastBlock db = some h) :
    h < 256 ^ 8 ∧ (∃ i, i < 256 ^ 8 ∧ KV.get db (indexKey h i) ≠ none) ∧
      ∀ h' i, h < h' → h' < 256 ^ 8 → KV.get db (indexKey h' i) = none := by
  unfold lastBlock at hl
  cases hk : lastKey db with
  | none => rw [hk] at hl; cases hl
  | some k =>
    rw [hk] at hl
    dsimp only at hl
    obtain ⟨⟨v, hv⟩, hr, hmax⟩ := lastKey_some db k hk
    rcases hs _ hv with ⟨x, hx⟩ | ⟨a, i, hx, ha, hi⟩
    · dsimp only at hx; rw [hx] at hr; exact absurd hr (hashKey_range x)
    · dsimp only at hx
      subst hx
      rw [blockOf_indexKey a i ha] at hl
      cases hl
      refine ⟨ha, ⟨i, hi, mem_key.1 ⟨v, hv⟩⟩, ?_⟩
      intro h' i' hlt hh'
      apply KV.get_eq_none.2
      intro e he hk'
      exact hmax e he (hk' ▸ indexKey_range h' i') (hk' ▸ indexKey_lt i i' ha hh' hlt)

/-! ## Saves -/

theorem get_save_hash (db : DB) (x y : Nat) (r : Rec) (hx : x < 256 ^ 32) (hy : y < 256 ^ 32) :
    KV.get (save db x r) (hashKey y) = if y = x then some (.entry r) else KV.get db (hashKey y) := by
  unfold save
  rw [KV.get_set, if_neg (hashKey_ne_indexKey _ _ _), KV.get_set]
  by_cases h : y = x
  · rw [if_pos (by rw [h]), if_pos h]
  · rw [if_neg (fun e => h (hashKey_inj hy hx e)), if_neg h]

theorem get_save_index (db : DB) (x : Nat) (r : Rec) (h i : Nat) (hh : h < 256 ^ 8) (hi : i < 256 ^ 8)
    (hr : r.height < 256 ^ 8) (he : r.ethIndex < 256 ^ 8) :
    KV.get (save db x r) (indexKey h i)
      = if h = r.height ∧ i = r.ethIndex then some (.hash x) else KV.get db (indexKey h i) := by
  unfold save
  rw [KV.get_set, KV.get_set, if_neg (c := indexKey h i = hashKey x) (fun e => hashKey_ne_indexKey _ _ _ e.symm)]
  by_cases h' : h = r.height ∧ i = r.ethIndex
  · rw [if_pos (by rw [h'.1, h'.2]), if_pos h']
  · rw [if_neg (fun e => h' (indexKey_inj hh hr hi he e)), if_neg h']

theorem shaped_save (db : DB) (x : Nat) (r : Rec) (hs : Shaped db) (hr : r.height < 256 ^ 8)
    (he : r.ethIndex < 256 ^ 8) : Shaped (save db x r) := by
  intro e h
  unfold save at h
  rcases KV.mem_set.1 h with rfl | ⟨h, _⟩
  · exact .inr ⟨_, _, rfl, hr, he⟩
  · rcases KV.mem_set.1 h with rfl | ⟨h, _⟩
    · exact .inl ⟨_, rfl⟩
    · exact hs e h

theorem shaped_saveAll (height : Nat) (hh : height < 256 ^ 8) (ps : List Place) : ∀ (db : DB) (n : Nat),
    n + ps.length ≤ 256 ^ 8 → Shaped db → Shaped (saveAll height db n ps) := by
  induction ps with
  | nil => intro db n _ hs; exact hs
  | cons p ps ih =>
    intro db n hn hs
    rw [List.length_cons] at hn
    exact ih _ (n + 1) (by omega) (shaped_save db _ _ hs hh (show n < _ by omega))

theorem saveAll_index (height : Nat) (hh : height < 256 ^ 8) (ps : List Place) : ∀ (db : DB) (n : Nat),
    n + ps.length ≤ 256 ^ 8 → ∀ h i, h < 256 ^ 8 → i < 256 ^ 8 →
    KV.get (saveAll height db n ps) (indexKey h i)
      = if h = height ∧ n ≤ i ∧ i < n + ps.length then (ps[i - n]?).map (fun p => .hash p.m.hash)
        else KV.get db (indexKey h i) := by
  induction ps with
  | nil =>
    intro db n _ h i _ _
    rw [if_neg (by rw [List.length_nil]; omega)]; rfl
  | cons p ps ih =>
    intro db n hn h i hb hi
    rw [List.length_cons] at hn
    show KV.get (saveAll height (save db p.m.hash (record height n p)) (n + 1) ps) _ = _
    rw [ih _ (n + 1) (by omega) h i hb hi, List.length_cons,
      get_save_index db p.m.hash (record height n p) h i hb hi hh (show n < 256 ^ 8 by omega)]
    by_cases h1 : h = height ∧ n + 1 ≤ i ∧ i < n + 1 + ps.length
    · rw [if_pos h1, if_pos (by omega), show i - n = (i - (n + 1)) + 1 by omega, List.getElem?_cons_succ]
    · rw [if_neg h1]
      by_cases h2 : h = height ∧ i = n
      · rw [if_pos (show h = (record height n p).height ∧ i = (record height n p).ethIndex from h2),
          if_pos (by omega), show i - n = 0 by omega]; rfl
      · rw [if_neg (show ¬ (h = (record height n p).height ∧ i = (record height n p).ethIndex) from h2),
          if_neg (by omega)]

theorem saveAll_hash_other (height : Nat) (ps : List Place) : ∀ (db : DB) (n y : Nat), y < 256 ^ 32 →
    (∀ p ∈ ps, p.m.hash < 256 ^ 32) → (∀ p ∈ ps, p.m.hash ≠ y) →
    KV.get (saveAll height db n ps) (hashKey y) = KV.get db (hashKey y) := by
  induction ps with
  | nil => intro db n y _ _ _; rfl
  | cons p ps ih =>
    intro db n y hy hp hne
    show KV.get (saveAll height (save db p.m.hash (record height n p)) (n + 1) ps) _ = _
    rw [ih _ (n + 1) y hy (fun q hq => hp q (.tail _ hq)) (fun q hq => hne q (.tail _ hq)),
      get_save_hash db _ y _ (hp p (.head _)) hy, if_neg (fun e => hne p (.head _) e.symm)]

theorem saveAll_hash (height : Nat) (ps : List Place) : ∀ (db : DB) (n k : Nat) (p : Place),
    (∀ q ∈ ps, q.m.hash < 256 ^ 32) → ps[k]? = some p →
    (∀ (k' : Nat) (q : Place), ps[k']? = some q → q.m.hash = p.m.hash → k' = k) →
    KV.get (saveAll height db n ps) (hashKey p.m.hash) = some (.entry (record height (n + k) p)) := by
  induction ps with
  | nil => intro db n k p _ h; simp at h
  | cons a ps ih =>
    intro db n k p hp h hu
    show KV.get (saveAll height (save db a.m.hash (record height n a)) (n + 1) ps) _ = _
    have hpb : p.m.hash < 256 ^ 32 := hp p (List.mem_of_getElem? h)
    cases k with
    | zero =>
      simp only [List.getElem?_cons_zero, Option.some.injEq] at h
      subst h
      rw [saveAll_hash_other height ps _ (n + 1) _ hpb (fun q hq => hp q (.tail _ hq))
        (fun q hq e => by
          obtain ⟨k', hk'⟩ := List.mem_iff_getElem?.1 hq
          have := hu (k' + 1) q (by rw [List.getElem?_cons_succ]; exact hk') e
          omega),
        get_save_hash db _ _ _ hpb hpb, if_pos rfl, Nat.add_zero]
    | succ k =>
      rw [List.getElem?_cons_succ] at h
      rw [ih _ (n + 1) k p (fun q hq => hp q (.tail _ hq)) h (fun k' q hk' e => by
        have := hu (k' + 1) q (by rw [List.getElem?_cons_succ]; exact hk') e
        omega), show n + 1 + k = n + (k + 1) by omega]

end EthIndex
