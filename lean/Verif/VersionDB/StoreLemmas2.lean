import Verif.VersionDB.StoreLemmas
/-! Lemmas on the versioned store: histories and iterators. -/
namespace VersionDB
open Bytes

/-! ### Prefixes -/

theorem split_slash : ∀ {s t k l : List UInt8}, (47 : UInt8) ∉ s → (47 : UInt8) ∉ t → s ++ 47 :: k = t ++ 47 :: l → s = t ∧ k = l
  | [], [], k, l, _, _, h => by
    rw [List.nil_append, List.nil_append] at h
    injection h with _ h
    exact ⟨rfl, h⟩
  | [], b :: t, k, l, _, ht, h => by
    rw [List.nil_append, List.cons_append] at h
    injection h with h _
    exact absurd (by rw [h]; exact List.mem_cons_self) ht
  | a :: s, [], k, l, hs, _, h => by
    rw [List.nil_append, List.cons_append] at h
    injection h with h _
    exact absurd (by rw [← h]; exact List.mem_cons_self) hs
  | a :: s, b :: t, k, l, hs, ht, h => by
    rw [List.cons_append, List.cons_append] at h
    injection h with h1 h2
    have := split_slash (fun h => hs (List.mem_cons_of_mem _ h)) (fun h => ht (List.mem_cons_of_mem _ h)) h2
    exact ⟨by rw [h1, this.1], this.2⟩

theorem prefix_inj {s t k l : List UInt8} (hs : (47 : UInt8) ∉ s) (ht : (47 : UInt8) ∉ t) :
    storePrefix s ++ k = storePrefix t ++ l ↔ s = t ∧ k = l := by
  constructor
  · intro h
    unfold storePrefix at h
    have h' : s ++ 47 :: k = t ++ 47 :: l := by simpa using h
    exact split_slash hs ht h'
  · rintro ⟨rfl, rfl⟩; rfl

theorem lt_append (p : List UInt8) {a b : List UInt8} : p ++ a < p ++ b ↔ a < b := by
  induction p with
  | nil => exact Iff.rfl
  | cons c p ih =>
    rw [List.cons_append, List.cons_append, List.cons_lt_cons_iff]
    constructor
    · rintro (h | h)
      · exact absurd h (UInt8.lt_irrefl c)
      · exact ih.1 h.2
    · exact fun h => .inr ⟨rfl, ih.2 h⟩

theorem le_append (p : List UInt8) {a b : List UInt8} : p ++ a ≤ p ++ b ↔ a ≤ b := by
  rw [← List.not_lt, ← List.not_lt, lt_append]

theorem lex_between (p : List UInt8) : ∀ {a b x : List UInt8}, p ++ a ≤ x → x < p ++ b → ∃ k, x = p ++ k ∧ a ≤ k ∧ k < b := by
  induction p with
  | nil => intro a b x h1 h2; exact ⟨x, rfl, h1, h2⟩
  | cons c p ih =>
    intro a b x h1 h2
    cases x with
    | nil => exact absurd h1 (List.not_le.2 (List.nil_lt_cons _ _))
    | cons y ys =>
      rw [List.cons_append] at h1 h2
      rw [List.cons_lt_cons_iff] at h2
      rw [← List.not_lt, List.cons_lt_cons_iff] at h1
      have hy : y = c := by
        rcases h2 with h2 | h2
        · exact absurd (.inl h2) h1
        · exact h2.1
      subst hy
      have h2' : ys < p ++ b := h2.elim (fun h => absurd h (UInt8.lt_irrefl _)) (·.2)
      have h1' : p ++ a ≤ ys := List.not_lt.1 (fun h => h1 (.inr ⟨rfl, h⟩))
      obtain ⟨k, e, h⟩ := ih h1' h2'
      exact ⟨k, by rw [e]; rfl, h⟩

theorem cpIncr_prefix (s : List UInt8) : cpIncr (storePrefix s) = some ([115, 47, 107, 58] ++ s ++ [48]) := by
  unfold cpIncr storePrefix
  rw [List.reverse_append]
  show Option.map List.reverse (some (48 :: _)) = _
  simp

theorem slash_range {k : List UInt8} (h1 : [47] ≤ k) (h2 : k < [48]) : ∃ l, k = 47 :: l := by
  cases k with
  | nil => exact absurd h1 (List.not_le.2 (List.nil_lt_cons _ _))
  | cons y ys =>
    rw [List.cons_lt_cons_iff] at h2
    rw [← List.not_lt, List.cons_lt_cons_iff] at h1
    have hy : y < 48 := by
      rcases h2 with h2 | h2
      · exact h2
      · exact absurd h2.2 (List.not_lt_nil _)
    have hy2 : ¬ y < 47 := fun h => h1 (.inl h)
    have : y = 47 := by
      apply UInt8.toNat_inj.1
      have a1 := UInt8.lt_iff_toNat_lt.1 hy
      have a2 : ¬ y.toNat < (47 : UInt8).toNat := fun h => hy2 (UInt8.lt_iff_toNat_lt.2 h)
      have e1 : (48 : UInt8).toNat = 48 := rfl
      have e2 : (47 : UInt8).toNat = 47 := rfl
      omega
    exact ⟨ys, by rw [this]⟩

/-- The keys in the range of an iterator are those of the store, in the range asked for. -/
theorem range_iff (store : List UInt8) (start stop : Option (List UInt8)) (x : List UInt8) :
    ((iterateWithPrefix (storePrefix store) start stop).1 ≤ x ∧
      (iterateWithPrefix (storePrefix store) start stop).2.all (fun e => decide (x < e)) = true) ↔
    ∃ k, x = storePrefix store ++ k ∧ (∀ a, start = some a → a ≤ k) ∧ (∀ b, stop = some b → k < b) := by
  have hstart : ∀ k : List UInt8, start.getD [] ≤ k ↔ ∀ a, start = some a → a ≤ k := by
    intro k
    cases start with
    | none =>
      show [] ≤ k ↔ _
      exact ⟨fun _ a h => (by cases h), fun _ => List.nil_le k⟩
    | some a => exact ⟨fun h b e => by cases e; exact h, fun h => h a rfl⟩
  unfold iterateWithPrefix
  cases stop with
  | none =>
    dsimp only
    rw [cpIncr_prefix]
    simp only [Option.all_some, decide_eq_true_eq]
    constructor
    · rintro ⟨h1, h2⟩
      have h1' : ([115, 47, 107, 58] ++ store) ++ ([47] ++ start.getD []) ≤ x := by
        unfold storePrefix at h1
        rw [← List.append_assoc]; exact h1
      obtain ⟨k, e, h3, h4⟩ := lex_between _ h1' h2
      have h3' : [47] ≤ k := by
        apply List.le_trans _ h3
        have : [47] ++ ([] : List UInt8) ≤ [47] ++ start.getD [] := (le_append [47]).2 (List.nil_le _)
        exact this
      obtain ⟨l, rfl⟩ := slash_range h3' h4
      refine ⟨l, by rw [e]; simp [storePrefix], ?_, by intro b h; cases h⟩
      rw [← hstart]
      exact (le_append [47]).1 h3
    · rintro ⟨k, rfl, h1, _⟩
      refine ⟨(le_append _).2 ((hstart k).2 h1), ?_⟩
      have : storePrefix store ++ k = ([115, 47, 107, 58] ++ store) ++ (47 :: k) := by simp [storePrefix]
      rw [this]
      apply (lt_append _).2
      rw [List.cons_lt_cons_iff]
      left; decide
  | some b =>
    dsimp only
    simp only [Option.all_some, decide_eq_true_eq]
    constructor
    · rintro ⟨h1, h2⟩
      obtain ⟨k, e, h3, h4⟩ := lex_between _ h1 h2
      exact ⟨k, e, (hstart k).1 h3, by intro b' h; cases h; exact h4⟩
    · rintro ⟨k, rfl, h1, h2⟩
      exact ⟨(le_append _).2 ((hstart k).2 h1), (lt_append _).2 (h2 b rfl)⟩

/-! ### Iterators -/

theorem dropWhile_sorted {rows : List Row} (hs : rows.Pairwise (fun a b => a.key < b.key)) (a : List UInt8) :
    rows.dropWhile (fun r => decide (r.key < a)) = rows.filter (fun r => decide (a ≤ r.key)) := by
  induction rows with
  | nil => rfl
  | cons r rs ih =>
    have hp := List.pairwise_cons.1 hs
    rw [List.dropWhile_cons, List.filter_cons]
    split
    · rename_i h
      rw [if_neg (by simpa using h), ih hp.2]
    · rename_i h
      have h' : a ≤ r.key := by simpa using h
      rw [if_pos (by simpa using h')]
      congr 1
      symm
      rw [List.filter_eq_self]
      intro x hx
      simpa using List.le_trans h' (List.le_of_lt (hp.1 x hx))

theorem takeWhile_sorted {rows : List Row} (hs : rows.Pairwise (fun a b => a.key < b.key)) (a : List UInt8) :
    rows.takeWhile (fun r => decide (r.key < a)) = rows.filter (fun r => decide (r.key < a)) := by
  induction rows with
  | nil => rfl
  | cons r rs ih =>
    have hp := List.pairwise_cons.1 hs
    rw [List.takeWhile_cons, List.filter_cons]
    split
    · rw [ih hp.2]
    · rename_i h
      have h' : a ≤ r.key := by simpa using h
      symm
      rw [List.filter_eq_nil_iff]
      intro x hx
      simpa using List.le_trans h' (List.le_of_lt (hp.1 x hx))

theorem forward_sorted {rows : List Row} (hs : rows.Pairwise (fun a b => a.key < b.key)) (stop : Option (List UInt8)) (skip : Bool) :
    forward stop skip rows = rows.filter (fun r => stop.all (fun e => decide (r.key < e)) && !(skip && r.ts == 0)) := by
  induction rows with
  | nil => rfl
  | cons r rs ih =>
    have hp := List.pairwise_cons.1 hs
    unfold forward
    rw [List.filter_cons]
    split
    · rename_i h
      cases stop with
      | none => cases h
      | some e =>
        have h' : e ≤ r.key := by simpa using h
        rw [if_neg (by simp [List.not_lt.2 h'])]
        symm
        rw [List.filter_eq_nil_iff]
        intro x hx
        simp [List.not_lt.2 (List.le_trans h' (List.le_of_lt (hp.1 x hx)))]
    · rename_i h
      have h' : stop.all (fun e => decide (r.key < e)) = true := by
        cases stop with
        | none => rfl
        | some e => simpa using h
      split
      · rename_i h2
        rw [if_neg (by rw [h2]; simp), ih hp.2]
      · rename_i h2
        rw [if_pos (by rw [h', Bool.eq_false_iff.2 h2]; rfl), ih hp.2]

theorem backward_sorted {rows : List Row} (hs : rows.Pairwise (fun a b => b.key < a.key)) (start : List UInt8) (skip : Bool) :
    backward start skip rows = rows.filter (fun r => decide (start ≤ r.key) && !(skip && r.ts == 0)) := by
  induction rows with
  | nil => rfl
  | cons r rs ih =>
    have hp := List.pairwise_cons.1 hs
    unfold backward
    rw [List.filter_cons]
    split
    · rename_i h
      rw [if_neg (by rw [decide_eq_false (List.not_le.2 h)]; simp)]
      symm
      rw [List.filter_eq_nil_iff]
      intro x hx
      rw [decide_eq_false (List.not_le.2 (List.lt_trans (hp.1 x hx) h))]; simp
    · rename_i h
      have h' : start ≤ r.key := List.not_lt.1 h
      split
      · rename_i h2
        rw [if_neg (by rw [h2]; simp), ih hp.2]
      · rename_i h2
        rw [if_pos (by rw [decide_eq_true h', Bool.eq_false_iff.2 h2]; rfl), ih hp.2]

theorem reverseRows_sorted {rows : List Row} (hs : rows.Pairwise (fun a b => a.key < b.key)) (stop : Option (List UInt8)) :
    reverseRows stop rows = (rows.filter (fun r => stop.all (fun e => decide (r.key < e)))).reverse := by
  cases stop with
  | none =>
    show rows.reverse = _
    rw [List.filter_eq_self.2 (by intro r _; rfl)]
  | some e =>
    unfold reverseRows
    dsimp only
    simp only [Option.all_some]
    split
    · rename_i h
      rw [dropWhile_sorted hs, List.filter_eq_nil_iff] at h
      rw [List.filter_eq_self.2]
      intro r hr
      have := h r hr
      simpa using this
    · rename_i r _ h
      have hr : r ∈ rows.filter (fun r => decide (e ≤ r.key)) := by
        rw [← dropWhile_sorted hs, h]; exact List.mem_cons_self
      rw [if_pos (by simpa using (List.mem_filter.1 hr).2), takeWhile_sorted hs]

/-- All an iterator shows. -/
theorem shown_eq {s : Store} (hs : s.db.Pairwise Before) (store : List UInt8) {start stop : Option (List UInt8)} (h1 : start ≠ some [])
    (h2 : stop ≠ some []) (version : Option Int) (reverse : Bool) :
    iteratorAtVersion s store start stop version reverse =
      some (((fun l : List Row => if reverse then l.reverse else l) ((visible (readTS version) none s.db).filter
        (fun r => decide ((iterateWithPrefix (storePrefix store) start stop).1 ≤ r.key) &&
          (iterateWithPrefix (storePrefix store) start stop).2.all (fun e => decide (r.key < e)) && !(s.skipVersionZero && r.ts == 0)))).map
        (fun r => (r.key.drop (storePrefix store).length, r.value))) := by
  have hv := visible_sorted (v := readTS version) hs (last := none) (by intro l h; cases h)
  unfold iteratorAtVersion
  rw [if_neg (by rintro (h | h) <;> contradiction)]
  dsimp only
  generalize iterateWithPrefix (storePrefix store) start stop = range
  cases reverse with
  | false =>
    simp only [Bool.false_eq_true, if_false]
    rw [dropWhile_sorted hv, forward_sorted (hv.filter _), List.filter_filter]
    congr 3
    funext r
    simp only [Bool.and_comm, Bool.and_assoc, Bool.and_left_comm]
  | true =>
    simp only [if_true]
    rw [reverseRows_sorted hv, backward_sorted, List.filter_reverse, List.filter_filter]
    · congr 4
      funext r
      simp only [Bool.and_comm, Bool.and_assoc, Bool.and_left_comm]
    · rw [List.pairwise_reverse]
      exact hv.filter _

/-! ### Histories -/

/-- One write: a version and a pair. -/
def writeAll (db : List Entry) (ws : List (Nat × StorePair)) : List Entry := ws.foldl (fun db w => putEntry (entryOf w.1 w.2) db) db

theorem entryOf_K (v : Nat) (p : StorePair) : (entryOf v p).K = storePrefix p.store ++ p.key := userKey_internal (le_length 8 v)

theorem entryOf_T {v : Nat} (h : v < 2 ^ 64) (p : StorePair) : (entryOf v p).T = v := by
  show unle (tsBytes (internalKey _ (le 8 v))) = v
  rw [tsBytes_internal (le_length 8 v)]
  exact unle_le 8 v h

/-- The last write of a full key, up to a version, after `r`. -/
def lastWrite (k : List UInt8) (v : Nat) (r : Option (Nat × Option (List UInt8))) (ws : List (Nat × StorePair)) : Option (Nat × Option (List UInt8)) :=
  ws.foldl (fun r w => if storePrefix w.2.store ++ w.2.key = k ∧ w.1 ≤ v then some (w.1, if w.2.delete then none else some w.2.value) else r) r

theorem writeAll_newest (ws : List (Nat × StorePair)) : ∀ {db : List Entry}, db.Pairwise Before → (∀ w ∈ ws, w.1 < 2 ^ 64) →
    ws.Pairwise (fun a b => a.1 ≤ b.1) → (∀ x ∈ db, ∀ w ∈ ws, x.T ≤ w.1) →
    (writeAll db ws).Pairwise Before ∧ (∀ k v r, Newest db k v r → Newest (writeAll db ws) k v (lastWrite k v r ws)) := by
  induction ws with
  | nil => intro db hs _ _ _; exact ⟨hs, fun _ _ _ h => h⟩
  | cons w ws ih =>
    intro db hs hv hw hm
    have hp := List.pairwise_cons.1 hw
    have hT := entryOf_T (hv w List.mem_cons_self) w.2
    obtain ⟨i1, i2⟩ := ih (put_sorted (e := entryOf w.1 w.2) hs) (fun x hx => hv x (List.mem_cons_of_mem _ hx)) hp.2 (by
      intro x hx w' hw'
      rcases (mem_put hs).1 hx with rfl | hx
      · rw [hT]; exact hp.1 w' hw'
      · exact hm x hx.1 w' (List.mem_cons_of_mem _ hw'))
    refine ⟨i1, ?_⟩
    intro k v r h
    have := newest_put hs (e := entryOf w.1 w.2) (fun x hx => by rw [hT]; exact hm x hx w List.mem_cons_self) h
    rw [entryOf_K, hT] at this
    exact i2 k v _ this

theorem getEntry_writeAll {ws : List (Nat × StorePair)} (hv : ∀ w ∈ ws, w.1 < 2 ^ 64) (hw : ws.Pairwise (fun a b => a.1 ≤ b.1))
    (k : List UInt8) {v : Nat} (h : v < 2 ^ 64) : getEntry (writeAll [] ws) k (le 8 v) = lastWrite k v none ws := by
  obtain ⟨h1, h2⟩ := writeAll_newest ws .nil hv hw (by intro x hx; cases hx)
  exact newest_unique h1 (getEntry_newest h1 k h) (h2 k v none (by intro e he; cases he))

end VersionDB
