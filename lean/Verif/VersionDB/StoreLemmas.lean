import Verif.VersionDB.Store
/-! Lemmas on the versioned store. -/
namespace VersionDB
open Bytes

/-- User key and timestamp of an entry. -/
def Entry.K (e : Entry) : List UInt8 := userKey e.ikey
def Entry.T (e : Entry) : Nat := unle (tsBytes e.ikey)

/-- The order of the comparator. -/
def Before (a b : Entry) : Prop := a.K < b.K ∨ (a.K = b.K ∧ b.T < a.T)

theorem lt_asymm' {a b : List UInt8} (h : a < b) : ¬ b < a := fun h2 => List.lt_irrefl _ (List.lt_trans h h2)

theorem lt_or_eq_or_gt (a b : List UInt8) : a < b ∨ a = b ∨ b < a := by
  rcases List.le_total a b with h | h
  · rcases List.le_iff_lt_or_eq.1 h with h | h
    · exact .inl h
    · exact .inr (.inl h)
  · rcases List.le_iff_lt_or_eq.1 h with h | h
    · exact .inr (.inr h)
    · exact .inr (.inl h.symm)

theorem compareKeys_lt {a b : List UInt8} : compareKeys a b = .lt ↔
    userKey a < userKey b ∨ (userKey a = userKey b ∧ unle (tsBytes b) < unle (tsBytes a)) := by
  unfold compareKeys bytesCompare compareTS
  rcases lt_or_eq_or_gt (userKey a) (userKey b) with h | h | h
  · rw [if_pos h]; simp [h]
  · rw [h, if_neg (List.lt_irrefl _), if_neg (List.lt_irrefl _)]
    dsimp only
    split
    · simp [List.lt_irrefl]; omega
    · split
      · simp; omega
      · simp [List.lt_irrefl]; omega
  · rw [if_neg (lt_asymm' h), if_pos h]
    have : userKey a ≠ userKey b := by intro e; rw [e] at h; exact List.lt_irrefl _ h
    simp [lt_asymm' h, this]

theorem compareKeys_eq {a b : List UInt8} : compareKeys a b = .eq ↔ userKey a = userKey b ∧ unle (tsBytes b) = unle (tsBytes a) := by
  unfold compareKeys bytesCompare compareTS
  rcases lt_or_eq_or_gt (userKey a) (userKey b) with h | h | h
  · have : userKey a ≠ userKey b := by intro e; rw [e] at h; exact List.lt_irrefl _ h
    rw [if_pos h]; simp [this]
  · rw [h, if_neg (List.lt_irrefl _), if_neg (List.lt_irrefl _)]
    dsimp only
    split
    · simp; omega
    · split
      · simp; omega
      · simp; omega
  · rw [if_neg (lt_asymm' h), if_pos h]
    have : userKey a ≠ userKey b := by intro e; rw [e] at h; exact List.lt_irrefl _ h
    simp [this]

theorem compareKeys_gt {a b : List UInt8} : compareKeys a b = .gt ↔
    userKey b < userKey a ∨ (userKey b = userKey a ∧ unle (tsBytes a) < unle (tsBytes b)) := by
  have h1 := @compareKeys_lt a b
  have h2 := @compareKeys_eq a b
  cases hc : compareKeys a b with
  | lt =>
    simp only [hc, true_iff] at h1
    simp only [reduceCtorEq, false_iff]
    rintro (h | h)
    · rcases h1 with h1 | h1
      · exact lt_asymm' h h1
      · rw [h1.1] at h; exact List.lt_irrefl _ h
    · rcases h1 with h1 | h1
      · rw [h.1] at h1; exact List.lt_irrefl _ h1
      · omega
  | eq =>
    simp only [hc, true_iff] at h2
    simp only [reduceCtorEq, false_iff]
    rintro (h | h)
    · rw [h2.1] at h; exact List.lt_irrefl _ h
    · omega
  | gt =>
    simp only [hc, reduceCtorEq, false_iff] at h1 h2
    simp only [true_iff]
    rcases lt_or_eq_or_gt (userKey a) (userKey b) with h | h | h
    · exact absurd (.inl h) h1
    · refine .inr ⟨h.symm, ?_⟩
      have : ¬ unle (tsBytes b) < unle (tsBytes a) := fun h3 => h1 (.inr ⟨h, h3⟩)
      have : ¬ unle (tsBytes b) = unle (tsBytes a) := fun h3 => h2 ⟨h, h3⟩
      omega
    · exact .inl h

theorem userKey_internal {k ts : List UInt8} (h : ts.length = 8) : userKey (internalKey k ts) = k := by
  unfold userKey internalKey
  rw [List.length_append, h, Nat.add_sub_cancel, List.take_left]

theorem tsBytes_internal {k ts : List UInt8} (h : ts.length = 8) : tsBytes (internalKey k ts) = ts := by
  unfold tsBytes internalKey
  rw [List.length_append, h, Nat.add_sub_cancel, List.drop_left]

theorem before_trans {a b c : Entry} (h1 : Before a b) (h2 : Before b c) : Before a c := by
  unfold Before at *
  rcases h1 with h1 | ⟨e1, h1⟩ <;> rcases h2 with h2 | ⟨e2, h2⟩
  · exact .inl (List.lt_trans h1 h2)
  · exact .inl (e2 ▸ h1)
  · exact .inl (e1 ▸ h2)
  · exact .inr ⟨e1.trans e2, by omega⟩

theorem before_irrefl (a : Entry) : ¬ Before a a := by
  unfold Before
  rintro (h | h)
  · exact List.lt_irrefl _ h
  · omega

/-- Membership after a write. -/
theorem mem_put {e x : Entry} {db : List Entry} (hs : db.Pairwise Before) :
    x ∈ putEntry e db ↔ x = e ∨ (x ∈ db ∧ ¬(x.K = e.K ∧ x.T = e.T)) := by
  induction db with
  | nil => simp [putEntry]
  | cons y ys ih =>
    have hp := List.pairwise_cons.1 hs
    unfold putEntry
    split
    · rename_i hc
      have hb : Before e y := compareKeys_lt.1 hc
      constructor
      · intro h
        rcases List.mem_cons.1 h with h | h
        · exact .inl h
        · refine .inr ⟨h, ?_⟩
          rintro ⟨h1, h2⟩
          have hex : Before e x := by
            rcases List.mem_cons.1 h with rfl | h
            · exact hb
            · exact before_trans hb (hp.1 x h)
          unfold Before at hex
          rw [h1, h2] at hex
          rcases hex with h | h
          · exact List.lt_irrefl _ h
          · omega
      · rintro (h | h)
        · rw [h]; exact List.mem_cons_self
        · exact List.mem_cons_of_mem _ h.1
    · rename_i hc
      have he : e.K = y.K ∧ y.T = e.T := compareKeys_eq.1 hc
      constructor
      · intro h
        rcases List.mem_cons.1 h with h | h
        · exact .inl h
        · refine .inr ⟨List.mem_cons_of_mem _ h, ?_⟩
          rintro ⟨h1, h2⟩
          have := hp.1 x h
          unfold Before at this
          rw [h1, h2, he.1, he.2] at this
          rcases this with h | h
          · exact List.lt_irrefl _ h
          · omega
      · rintro (h | h)
        · rw [h]; exact List.mem_cons_self
        · rcases List.mem_cons.1 h.1 with h2 | h2
          · subst h2; exact absurd ⟨he.1.symm, he.2⟩ h.2
          · exact List.mem_cons_of_mem _ h2
    · rename_i hc
      have hb : Before y e := compareKeys_gt.1 hc
      rw [List.mem_cons, ih hp.2, List.mem_cons]
      constructor
      · rintro (h | h | h)
        · subst h
          refine .inr ⟨.inl rfl, ?_⟩
          rintro ⟨h1, h2⟩
          unfold Before at hb
          rw [h1, h2] at hb
          rcases hb with h | h
          · exact List.lt_irrefl _ h
          · omega
        · exact .inl h
        · exact .inr ⟨.inr h.1, h.2⟩
      · rintro (h | ⟨h | h, h2⟩)
        · exact .inr (.inl h)
        · exact .inl h
        · exact .inr (.inr ⟨h, h2⟩)

theorem put_sorted {e : Entry} {db : List Entry} (hs : db.Pairwise Before) : (putEntry e db).Pairwise Before := by
  induction db with
  | nil => simp [putEntry]
  | cons y ys ih =>
    have hp := List.pairwise_cons.1 hs
    unfold putEntry
    split
    · rename_i hc
      have hb : Before e y := compareKeys_lt.1 hc
      refine List.pairwise_cons.2 ⟨?_, hs⟩
      intro x hx
      rcases List.mem_cons.1 hx with rfl | h
      · exact hb
      · exact before_trans hb (hp.1 x h)
    · rename_i hc
      have he : e.K = y.K ∧ y.T = e.T := compareKeys_eq.1 hc
      refine List.pairwise_cons.2 ⟨?_, hp.2⟩
      intro x hx
      have := hp.1 x hx
      unfold Before at *
      rw [he.1, ← he.2]; exact this
    · rename_i hc
      have hb : Before y e := compareKeys_gt.1 hc
      refine List.pairwise_cons.2 ⟨?_, ih hp.2⟩
      intro x hx
      rcases (mem_put hp.2).1 hx with rfl | h
      · exact hb
      · exact hp.1 x h.1

/-! ### Reading -/

/-- What a read at version `v` finds, said with membership. -/
def Newest (db : List Entry) (k : List UInt8) (v : Nat) : Option (Nat × Option (List UInt8)) → Prop
  | none => ∀ e ∈ db, e.K = k → v < e.T
  | some (t, x) => (∃ e ∈ db, e.K = k ∧ e.T = t ∧ e.val = x) ∧ t ≤ v ∧ ∀ e ∈ db, e.K = k → e.T ≤ v → e.T ≤ t

theorem newest_skip {x : Entry} {xs : List Entry} {k : List UInt8} {v : Nat} {r : Option (Nat × Option (List UInt8))}
    (hx : x.K < k ∨ (x.K = k ∧ v < x.T)) (ih : Newest xs k v r) : Newest (x :: xs) k v r := by
  cases r with
  | none =>
    intro e he hk
    rcases List.mem_cons.1 he with rfl | he
    · rcases hx with h | h
      · rw [hk] at h; exact absurd h (List.lt_irrefl _)
      · exact h.2
    · exact ih e he hk
  | some r =>
    obtain ⟨⟨e, he, h1⟩, h2, h3⟩ := ih
    refine ⟨⟨e, List.mem_cons_of_mem _ he, h1⟩, h2, ?_⟩
    intro e' he' hk ht
    rcases List.mem_cons.1 he' with rfl | he'
    · rcases hx with h | h
      · rw [hk] at h; exact absurd h (List.lt_irrefl _)
      · omega
    · exact h3 e' he' hk ht

theorem getEntry_newest {db : List Entry} (hs : db.Pairwise Before) (k : List UInt8) {v : Nat} (hv : v < 2 ^ 64) :
    Newest db k v (getEntry db k (le 8 v)) := by
  have hl : (le 8 v).length = 8 := le_length 8 v
  have hu : unle (le 8 v) = v := unle_le 8 v hv
  have hcmp : ∀ e : Entry, compareKeys e.ikey (internalKey k (le 8 v)) = .lt ↔ (e.K < k ∨ (e.K = k ∧ v < e.T)) := by
    intro e
    rw [compareKeys_lt, userKey_internal hl, tsBytes_internal hl, hu]
    rfl
  unfold getEntry
  induction db with
  | nil => intro e he; cases he
  | cons x xs ih =>
    have hp := List.pairwise_cons.1 hs
    have ih := ih hp.2
    rw [List.find?_cons]
    cases hb : (compareKeys x.ikey (internalKey k (le 8 v)) != .lt) with
    | false =>
      have hx : compareKeys x.ikey (internalKey k (le 8 v)) = .lt := by simpa using hb
      rw [hcmp] at hx
      dsimp only
      exact newest_skip hx ih
    | true =>
      have hx : ¬ compareKeys x.ikey (internalKey k (le 8 v)) = .lt := by simpa using hb
      rw [hcmp] at hx
      dsimp only
      split
      · rename_i hk
        have ht : x.T ≤ v := by
          apply Nat.le_of_not_lt
          intro h
          exact hx (.inr ⟨hk, h⟩)
        refine ⟨⟨x, List.mem_cons_self, hk, rfl, rfl⟩, ht, ?_⟩
        intro e he hke _
        rcases List.mem_cons.1 he with rfl | he
        · exact Nat.le_refl _
        · rcases hp.1 e he with h | h
          · rw [hke, show x.K = k from hk] at h; exact absurd h (List.lt_irrefl _)
          · exact Nat.le_of_lt h.2
      · rename_i hk
        intro e he hke
        rcases List.mem_cons.1 he with rfl | he
        · exact absurd hke hk
        · rcases hp.1 e he with h | h
          · rw [hke] at h; exact absurd (.inl h) hx
          · exact absurd (h.1.trans hke) hk

/-- In a sorted column family there is one entry for a key and timestamp. -/
theorem sorted_inj {db : List Entry} (hs : db.Pairwise Before) {a b : Entry} (ha : a ∈ db) (hb : b ∈ db) (hk : a.K = b.K) (ht : a.T = b.T) :
    a = b := by
  induction db with
  | nil => cases ha
  | cons x xs ih =>
    have hp := List.pairwise_cons.1 hs
    rcases List.mem_cons.1 ha with h1 | h1 <;> rcases List.mem_cons.1 hb with h2 | h2
    · rw [h1, h2]
    · subst h1
      have h := hp.1 b h2
      unfold Before at h; rw [hk, ht] at h
      rcases h with h | h
      · exact absurd h (List.lt_irrefl _)
      · omega
    · subst h2
      have h := hp.1 a h1
      unfold Before at h; rw [hk, ht] at h
      rcases h with h | h
      · exact absurd h (List.lt_irrefl _)
      · omega
    · exact ih hp.2 h1 h2

theorem newest_unique {db : List Entry} (hs : db.Pairwise Before) {k : List UInt8} {v : Nat} {r r' : Option (Nat × Option (List UInt8))}
    (h : Newest db k v r) (h' : Newest db k v r') : r = r' := by
  cases r with
  | none => cases r' with
    | none => rfl
    | some r' =>
      obtain ⟨⟨e, he, h1, h2, _⟩, h3, _⟩ := h'
      have := h e he h1
      omega
  | some r => cases r' with
    | none =>
      obtain ⟨⟨e, he, h1, h2, _⟩, h3, _⟩ := h
      have := h' e he h1
      omega
    | some r' =>
      obtain ⟨⟨e, he, h1, h2, h2'⟩, h3, h4⟩ := h
      obtain ⟨⟨f, hf, g1, g2, g2'⟩, g3, g4⟩ := h'
      have a1 := h4 f hf g1 (by omega)
      have a2 := g4 e he h1 (by omega)
      have := sorted_inj hs he hf (h1.trans g1.symm) (by omega)
      subst this
      rw [show r = r' from Prod.ext (by omega) (h2'.symm.trans g2')]

/-- A write at a version not below all that is there. -/
theorem newest_put {db : List Entry} (hs : db.Pairwise Before) {e : Entry} (hm : ∀ x ∈ db, x.T ≤ e.T) {k : List UInt8} {v : Nat}
    {r : Option (Nat × Option (List UInt8))} (h : Newest db k v r) :
    Newest (putEntry e db) k v (if e.K = k ∧ e.T ≤ v then some (e.T, e.val) else r) := by
  split
  · rename_i hc
    refine ⟨⟨e, (mem_put hs).2 (.inl rfl), hc.1, rfl, rfl⟩, hc.2, ?_⟩
    intro x hx _ _
    rcases (mem_put hs).1 hx with rfl | hx
    · exact Nat.le_refl _
    · exact hm x hx.1
  · rename_i hc
    have hne : ∀ x ∈ db, x.K = k → x.T ≤ v → ¬(x.K = e.K ∧ x.T = e.T) := fun x _ hk ht h => hc ⟨h.1.symm.trans hk, by omega⟩
    cases r with
    | none =>
      intro x hx hk
      rcases (mem_put hs).1 hx with rfl | hx
      · apply Nat.lt_of_not_le
        intro h; exact hc ⟨hk, h⟩
      · exact h x hx.1 hk
    | some r =>
      obtain ⟨⟨x, hx, h1, h2, h3⟩, h4, h5⟩ := h
      refine ⟨⟨x, (mem_put hs).2 (.inr ⟨hx, hne x hx h1 (by omega)⟩), h1, h2, h3⟩, h4, ?_⟩
      intro y hy hk ht
      rcases (mem_put hs).1 hy with rfl | hy
      · exact absurd ⟨hk, ht⟩ hc
      · exact h5 y hy.1 hk ht

/-! ### Rows -/

theorem visible_mem {db : List Entry} (hs : db.Pairwise Before) {v : Nat} : ∀ {last : Option (List UInt8)},
    (∀ l, last = some l → ∀ e ∈ db, l ≤ e.K) → ∀ r : Row,
    (r ∈ visible v last db ↔ last ≠ some r.key ∧ Newest db r.key v (some (r.ts, some r.value))) := by
  induction db with
  | nil => intro last _ r; simp [visible, Newest]
  | cons x xs ih =>
    intro last hl r
    have hp := List.pairwise_cons.1 hs
    have hl' : ∀ l, last = some l → ∀ e ∈ xs, l ≤ e.K := fun l h e he => hl l h e (List.mem_cons_of_mem _ he)
    have hxs : ∀ l, some x.K = some l → ∀ e ∈ xs, l ≤ e.K := by
      intro l h e he
      cases h
      rcases hp.1 e he with h | h
      · exact List.le_of_lt h
      · rw [h.1]; exact List.le_refl _
    unfold visible
    change (r ∈ (if v < x.T then _ else if last = some x.K then _ else _) ↔ _)
    split
    · rename_i hc
      rw [ih hp.2 hl' r]
      refine and_congr_right (fun _ => ?_)
      constructor
      · rintro ⟨⟨e, he, h⟩, h2, h3⟩
        refine ⟨⟨e, List.mem_cons_of_mem _ he, h⟩, h2, ?_⟩
        intro e' he' hk ht
        rcases List.mem_cons.1 he' with rfl | he'
        · omega
        · exact h3 e' he' hk ht
      · rintro ⟨⟨e, he, h⟩, h2, h3⟩
        refine ⟨⟨e, ?_, h⟩, h2, fun e' he' => h3 e' (List.mem_cons_of_mem _ he')⟩
        rcases List.mem_cons.1 he with rfl | he
        · omega
        · exact he
    · rename_i hc
      split
      · rename_i hlast
        rw [ih hp.2 hl' r]
        refine and_congr_right (fun hne => ?_)
        have hxr : x.K ≠ r.key := fun h => hne (by rw [hlast, h])
        constructor
        · rintro ⟨⟨e, he, h⟩, h2, h3⟩
          refine ⟨⟨e, List.mem_cons_of_mem _ he, h⟩, h2, ?_⟩
          intro e' he' hk ht
          rcases List.mem_cons.1 he' with rfl | he'
          · exact absurd hk hxr
          · exact h3 e' he' hk ht
        · rintro ⟨⟨e, he, h⟩, h2, h3⟩
          refine ⟨⟨e, ?_, h⟩, h2, fun e' he' => h3 e' (List.mem_cons_of_mem _ he')⟩
          rcases List.mem_cons.1 he with rfl | he
          · exact absurd h.1 hxr
          · exact he
      · rename_i hlast
        have hlx : ∀ l, last = some l → l < x.K := by
          intro l h
          rcases List.le_iff_lt_or_eq.1 (hl l h x List.mem_cons_self) with h2 | h2
          · exact h2
          · exact absurd (by rw [h, h2]) hlast
        -- rows of other keys
        have other : x.K ≠ r.key → (r ∈ visible v (some x.K) xs ↔ last ≠ some r.key ∧ Newest (x :: xs) r.key v (some (r.ts, some r.value))) := by
          intro hxr
          rw [ih hp.2 hxs r]
          constructor
          · rintro ⟨h1, ⟨e, he, h⟩, h2, h3⟩
            refine ⟨?_, ⟨e, List.mem_cons_of_mem _ he, h⟩, h2, ?_⟩
            · intro hh
              have a1 := hlx _ hh
              have a2 := hxs _ rfl e he
              rw [h.1] at a2
              exact absurd a1 (List.not_lt.2 a2)
            · intro e' he' hk ht
              rcases List.mem_cons.1 he' with rfl | he'
              · exact absurd hk hxr
              · exact h3 e' he' hk ht
          · rintro ⟨h1, ⟨e, he, h⟩, h2, h3⟩
            refine ⟨fun hh => hxr (Option.some.inj hh), ⟨e, ?_, h⟩, h2, fun e' he' => h3 e' (List.mem_cons_of_mem _ he')⟩
            rcases List.mem_cons.1 he with rfl | he
            · exact absurd h.1 hxr
            · exact he
        have mine : Newest (x :: xs) x.K v (some (x.T, x.val)) := by
          refine ⟨⟨x, List.mem_cons_self, rfl, rfl, rfl⟩, by omega, ?_⟩
          intro e he hk _
          rcases List.mem_cons.1 he with rfl | he
          · exact Nat.le_refl _
          · rcases hp.1 e he with h | h
            · rw [hk] at h; exact absurd h (List.lt_irrefl _)
            · exact Nat.le_of_lt h.2
        split
        · rename_i hval
          rcases Decidable.em (x.K = r.key) with hxr | hxr
          · constructor
            · intro h
              exact absurd (by rw [hxr]) ((ih hp.2 hxs r).1 h).1
            · rintro ⟨_, h⟩
              rw [← hxr] at h
              have := newest_unique hs mine h
              rw [hval] at this
              injection this with this
              injection this with _ h2
              cases h2
          · exact other hxr
        · rename_i val hval
          rw [List.mem_cons]
          rcases Decidable.em (x.K = r.key) with hxr | hxr
          · constructor
            · rintro (h | h)
              · subst h
                refine ⟨hlast, ?_⟩
                have := mine
                rw [hval] at this
                exact this
              · exact absurd (by rw [hxr]) ((ih hp.2 hxs r).1 h).1
            · rintro ⟨_, h⟩
              left
              rw [← hxr] at h
              have := newest_unique hs mine h
              rw [hval] at this
              injection this with this
              injection this with h1 h2
              injection h2 with h2
              cases r
              dsimp only at *
              rw [← h1, ← h2, ← hxr]
              rfl
          · constructor
            · rintro (h | h)
              · subst h; exact absurd rfl hxr
              · exact (other hxr).1 h
            · intro h
              exact .inr ((other hxr).2 h)

theorem visible_sorted {db : List Entry} (hs : db.Pairwise Before) {v : Nat} : ∀ {last : Option (List UInt8)},
    (∀ l, last = some l → ∀ e ∈ db, l ≤ e.K) → (visible v last db).Pairwise (fun a b => a.key < b.key) := by
  induction db with
  | nil => intro last _; exact .nil
  | cons x xs ih =>
    intro last hl
    have hp := List.pairwise_cons.1 hs
    have hl' : ∀ l, last = some l → ∀ e ∈ xs, l ≤ e.K := fun l h e he => hl l h e (List.mem_cons_of_mem _ he)
    have hxs : ∀ l, some x.K = some l → ∀ e ∈ xs, l ≤ e.K := by
      intro l h e he
      cases h
      rcases hp.1 e he with h | h
      · exact List.le_of_lt h
      · rw [h.1]; exact List.le_refl _
    unfold visible
    split
    · exact ih hp.2 hl'
    · split
      · exact ih hp.2 hl'
      · split
        · exact ih hp.2 hxs
        · refine List.pairwise_cons.2 ⟨?_, ih hp.2 hxs⟩
          intro r hr
          obtain ⟨h1, ⟨e, he, h2, _⟩, _⟩ := (visible_mem hp.2 hxs r).1 hr
          have := hxs _ rfl e he
          rw [h2] at this
          rcases List.le_iff_lt_or_eq.1 this with h | h
          · exact h
          · exact absurd (by rw [← h]) h1

end VersionDB
