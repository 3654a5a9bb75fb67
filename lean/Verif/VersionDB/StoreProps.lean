import Verif.VersionDB.StoreLemmas2
import Verif.VersionDB.SorterProps
/-!
# The versioned store (C59)
-/
namespace VersionDB
open Bytes

/-! ### Specification -/

/-- A block: its height and the changes it made, in order. -/
structure Block where
  version : Nat
  changes : List StorePair
deriving DecidableEq, Repr

/-- One change to the value of one key of one store. -/
def change (store key : List UInt8) (before : Option (List UInt8)) (p : StorePair) : Option (List UInt8) :=
  if p.store = store ∧ p.key = key then (if p.delete then none else some p.value) else before

/-- The value of a key after all blocks up to a height (`none`: after all blocks). -/
def stateAfter (h : List Block) (upTo : Option Nat) (store key : List UInt8) : Option (List UInt8) :=
  h.foldl (fun before b => if upTo.all (fun v => decide (b.version ≤ v)) then b.changes.foldl (change store key) before else before) none

/-- Heights are given in order, never going back; a height may come again (a block replayed after a crash). Store names have no slash. -/
def Orderly (h : List Block) : Prop :=
  h.Pairwise (fun a b => a.version ≤ b.version) ∧ ∀ b ∈ h, b.version < 2 ^ 63 ∧ ∀ p ∈ b.changes, (47 : UInt8) ∉ p.store

/-- The store after the blocks of a history. -/
def runBlocks (skip : Bool) (h : List Block) : Store := h.foldl (fun s b => putAtVersion s b.version b.changes) ⟨[], none, skip⟩

/-- With `skipVersionZero` the blocks of height zero do not count. -/
def counted (skip : Bool) (h : List Block) : List Block := if skip then h.filter (fun b => decide (b.version ≠ 0)) else h

/-! ### Proofs -/

/-- All writes of a history. -/
def writesOf (h : List Block) : List (Nat × StorePair) := (h.map (fun b => b.changes.map (fun p => (b.version, p)))).flatten

theorem runBlocks_aux (h : List Block) : ∀ s : Store, (h.foldl (fun s b => putAtVersion s b.version b.changes) s).db = writeAll s.db (writesOf h) ∧
    (h.foldl (fun s b => putAtVersion s b.version b.changes) s).skipVersionZero = s.skipVersionZero := by
  induction h with
  | nil => intro s; exact ⟨rfl, rfl⟩
  | cons b h ih =>
    intro s
    obtain ⟨i1, i2⟩ := ih (putAtVersion s b.version b.changes)
    refine ⟨?_, i2⟩
    rw [List.foldl_cons, i1]
    unfold writesOf writeAll putAtVersion
    rw [List.map_cons, List.flatten_cons, List.foldl_append, List.foldl_map]

theorem runBlocks_db (skip : Bool) (h : List Block) : (runBlocks skip h).db = writeAll [] (writesOf h) := (runBlocks_aux h ⟨[], none, skip⟩).1
theorem runBlocks_skip (skip : Bool) (h : List Block) : (runBlocks skip h).skipVersionZero = skip := (runBlocks_aux h ⟨[], none, skip⟩).2

theorem writesOf_ordered {h : List Block} (ho : Orderly h) : (writesOf h).Pairwise (fun a b => a.1 ≤ b.1) ∧ (∀ w ∈ writesOf h, w.1 < 2 ^ 63) ∧
    ∀ w ∈ writesOf h, (47 : UInt8) ∉ w.2.store := by
  obtain ⟨h1, h2⟩ := ho
  have hmem : ∀ w ∈ writesOf h, ∃ b ∈ h, w.1 = b.version ∧ w.2 ∈ b.changes := by
    intro w hw
    obtain ⟨l, hl, hw⟩ := List.mem_flatten.1 hw
    obtain ⟨b, hb, rfl⟩ := List.mem_map.1 hl
    obtain ⟨p, hp, rfl⟩ := List.mem_map.1 hw
    exact ⟨b, hb, rfl, hp⟩
  refine ⟨?_, ?_, ?_⟩
  · induction h with
    | nil => exact .nil
    | cons b h ih =>
      have hp := List.pairwise_cons.1 h1
      show List.Pairwise _ (b.changes.map (fun p => (b.version, p)) ++ writesOf h)
      rw [List.pairwise_append]
      refine ⟨?_, ih hp.2 (fun b hb => h2 b (List.mem_cons_of_mem _ hb)) ?_, ?_⟩
      · rw [List.pairwise_map]
        exact List.pairwise_of_forall (fun _ _ => Nat.le_refl _)
      · intro w hw
        obtain ⟨l, hl, hw⟩ := List.mem_flatten.1 hw
        obtain ⟨b, hb, rfl⟩ := List.mem_map.1 hl
        obtain ⟨p, hp, rfl⟩ := List.mem_map.1 hw
        exact ⟨b, hb, rfl, hp⟩
      · intro x hx y hy
        obtain ⟨p, _, rfl⟩ := List.mem_map.1 hx
        obtain ⟨l, hl, hy⟩ := List.mem_flatten.1 hy
        obtain ⟨b', hb', rfl⟩ := List.mem_map.1 hl
        obtain ⟨p', _, rfl⟩ := List.mem_map.1 hy
        exact hp.1 b' hb'
  · intro w hw
    obtain ⟨b, hb, e, _⟩ := hmem w hw
    rw [e]; exact (h2 b hb).1
  · intro w hw
    obtain ⟨b, hb, _, hp⟩ := hmem w hw
    exact (h2 b hb).2 w.2 hp

/-- What a read makes of the entry it finds. -/
def shownValue (skip : Bool) : Option (Nat × Option (List UInt8)) → Option (List UInt8)
  | none => none
  | some (t, x) => if skip ∧ t = 0 then none else x

/-- One write on both sides. -/
def writeStep (store key : List UInt8) (v : Nat) (r : Option (Nat × Option (List UInt8))) (w : Nat × StorePair) : Option (Nat × Option (List UInt8)) :=
  if storePrefix w.2.store ++ w.2.key = storePrefix store ++ key ∧ w.1 ≤ v then some (w.1, if w.2.delete then none else some w.2.value) else r

theorem lastWrite_state {store key : List UInt8} (hst : (47 : UInt8) ∉ store) (skip : Bool) {v : Nat} {upTo : Option Nat} (h : List Block) :
    (∀ b ∈ h, (b.version ≤ v ↔ upTo.all (fun v => decide (b.version ≤ v)) = true)) →
    h.Pairwise (fun a b => a.version ≤ b.version) → (∀ b ∈ h, ∀ p ∈ b.changes, (47 : UInt8) ∉ p.store) →
    ∀ (r : Option (Nat × Option (List UInt8))), (∀ t x, r = some (t, x) → ∀ b ∈ h, t ≤ b.version) →
    shownValue skip ((writesOf h).foldl (writeStep store key v) r) =
      (counted skip h).foldl (fun before b => if upTo.all (fun v => decide (b.version ≤ v)) then b.changes.foldl (change store key) before else before)
        (shownValue skip r) := by
  induction h with
  | nil => intro _ _ _ r _; unfold counted; cases skip <;> rfl
  | cons b h ih =>
    intro hv hp hn r hr
    have hp' := List.pairwise_cons.1 hp
    have ih := ih (fun b hb => hv b (List.mem_cons_of_mem _ hb)) hp'.2 (fun b hb => hn b (List.mem_cons_of_mem _ hb))
    show shownValue skip ((b.changes.map (fun p => (b.version, p)) ++ writesOf h).foldl _ r) = _
    rw [List.foldl_append, List.foldl_map]
    -- the changes of this block
    have hch : ∀ (cs : List StorePair), (∀ p ∈ cs, (47 : UInt8) ∉ p.store) → ∀ r : Option (Nat × Option (List UInt8)),
        (∀ t x, r = some (t, x) → t ≤ b.version) →
        (∀ t x, cs.foldl (fun r p => writeStep store key v r (b.version, p)) r = some (t, x) → t ≤ b.version) ∧
        shownValue skip (cs.foldl (fun r p => writeStep store key v r (b.version, p)) r) =
          if ¬(skip = true ∧ b.version = 0) ∧ b.version ≤ v then cs.foldl (change store key) (shownValue skip r) else shownValue skip r := by
      intro cs
      induction cs with
      | nil => intro _ r hr; refine ⟨hr, ?_⟩; split <;> rfl
      | cons p cs ihc =>
        intro hnc r hr
        have hstep : ∀ t x, writeStep store key v r (b.version, p) = some (t, x) → t ≤ b.version := by
          intro t x h
          unfold writeStep at h
          split at h
          · injection h with h; injection h with h _; dsimp only at h; omega
          · exact hr t x h
        have heq : shownValue skip (writeStep store key v r (b.version, p)) =
            if ¬(skip = true ∧ b.version = 0) ∧ b.version ≤ v then change store key (shownValue skip r) p else shownValue skip r := by
          unfold writeStep change
          simp only [prefix_inj (hnc p List.mem_cons_self) hst]
          generalize (if p.delete = true then none else some p.value) = y
          by_cases hk : p.store = store ∧ p.key = key
          · by_cases hb : b.version ≤ v
            · rw [if_pos ⟨hk, hb⟩, if_pos hk]
              by_cases hz : skip = true ∧ b.version = 0
              · rw [if_neg (fun h => h.1 hz)]
                show (if skip = true ∧ b.version = 0 then none else _) = _
                rw [if_pos hz]
                cases hr' : r with
                | none => rfl
                | some q =>
                  have := hr q.1 q.2 hr'
                  show none = if skip = true ∧ q.1 = 0 then none else q.2
                  rw [if_pos ⟨hz.1, by omega⟩]
              · rw [if_pos ⟨hz, hb⟩]
                show (if skip = true ∧ b.version = 0 then none else _) = _
                rw [if_neg hz]
            · rw [if_neg (fun h => hb h.2), if_neg (fun h => hb h.2)]
          · rw [if_neg (fun h => hk h.1), if_neg hk]
            split <;> rfl
        obtain ⟨j1, j2⟩ := ihc (fun q hq => hnc q (List.mem_cons_of_mem _ hq)) _ hstep
        refine ⟨j1, ?_⟩
        rw [List.foldl_cons, List.foldl_cons, j2, heq]
        split <;> rfl
    obtain ⟨k1, k2⟩ := hch b.changes (hn b List.mem_cons_self) r (fun t x h => hr t x h b List.mem_cons_self)
    rw [ih _ (fun t x h b' hb' => Nat.le_trans (k1 t x h) (hp'.1 b' hb')), k2]
    have hvb := hv b List.mem_cons_self
    by_cases hz : skip = true ∧ b.version = 0
    · have : counted skip (b :: h) = counted skip h := by
        unfold counted
        rw [if_pos hz.1, if_pos hz.1, List.filter_cons, if_neg (by simp [hz.2])]
      rw [this, if_neg (fun h => h.1 hz)]
    · have : counted skip (b :: h) = b :: counted skip h := by
        unfold counted
        cases skip with
        | false => rfl
        | true =>
          have hb : b.version ≠ 0 := fun h => hz ⟨rfl, h⟩
          rw [if_pos rfl, if_pos rfl, List.filter_cons, if_pos (by simp [hb])]
      rw [this, List.foldl_cons]
      congr 1
      by_cases hb : b.version ≤ v
      · rw [if_pos ⟨hz, hb⟩, if_pos (hvb.1 hb)]
      · rw [if_neg (fun h => hb h.2), if_neg (fun h => hb (hvb.2 h))]

theorem readTS_spec {upTo : Option Nat} (hu : ∀ v, upTo = some v → v < 2 ^ 63) : readTS (upTo.map Int.ofNat) < 2 ^ 64 ∧
    ∀ n : Nat, n < 2 ^ 63 → (n ≤ readTS (upTo.map Int.ofNat) ↔ upTo.all (fun v => decide (n ≤ v)) = true) := by
  cases upTo with
  | none =>
    have e : readTS ((none : Option Nat).map Int.ofNat) = 2 ^ 64 - 1 := rfl
    rw [e]
    have a : (2:Nat) ^ 63 ≤ 2 ^ 64 - 1 := by decide
    refine ⟨by decide, fun n hn => ⟨fun _ => rfl, fun _ => Nat.le_trans (Nat.le_of_lt hn) a⟩⟩
  | some v =>
    have hv := hu v rfl
    have e : readTS ((some v).map Int.ofNat) = v := by
      show ((v : Int) % 2 ^ 64).toNat = v
      omega
    rw [e]
    refine ⟨Nat.lt_trans hv (by decide), fun n _ => by simp⟩

theorem get_shown {skip : Bool} {h : List Block} {store key : List UInt8} {upTo : Option Nat} :
    getAtVersion (runBlocks skip h) store key (upTo.map Int.ofNat) =
      shownValue skip (getEntry (writeAll [] (writesOf h)) (storePrefix store ++ key) (le 8 (readTS (upTo.map Int.ofNat)))) := by
  unfold getAtVersion
  rw [runBlocks_db, runBlocks_skip]
  cases getEntry (writeAll [] (writesOf h)) (storePrefix store ++ key) (le 8 (readTS (upTo.map Int.ofNat))) <;> rfl

/-- Reading a key at a height gives the value it had after the block of that height, and without a height the value after the last block;
for every history of blocks, also when blocks are replayed. -/
theorem get_at_version {h : List Block} (ho : Orderly h) (skip : Bool) {store : List UInt8} (hst : (47 : UInt8) ∉ store) (key : List UInt8)
    {upTo : Option Nat} (hu : ∀ v, upTo = some v → v < 2 ^ 63) :
    getAtVersion (runBlocks skip h) store key (upTo.map Int.ofNat) = stateAfter (counted skip h) upTo store key := by
  obtain ⟨r1, r2⟩ := readTS_spec hu
  obtain ⟨w1, w2, w3⟩ := writesOf_ordered ho
  rw [get_shown, getEntry_writeAll (fun w hw => Nat.lt_trans (w2 w hw) (by decide)) w1 _ r1]
  exact lastWrite_state hst skip h (fun b hb => r2 _ (ho.2 b hb).1) ho.1 (fun b hb => (ho.2 b hb).2) none (fun t x h => by cases h)

theorem has_at_version {h : List Block} (ho : Orderly h) (skip : Bool) {store : List UInt8} (hst : (47 : UInt8) ∉ store) (key : List UInt8)
    {upTo : Option Nat} (hu : ∀ v, upTo = some v → v < 2 ^ 63) :
    hasAtVersion (runBlocks skip h) store key (upTo.map Int.ofNat) = (stateAfter (counted skip h) upTo store key).isSome := by
  unfold hasAtVersion
  rw [get_at_version ho skip hst key hu]

/-- An iterator at a height shows exactly the keys of the store that had a value after the block of that height and lie in the range, with
these values, in ascending order, or in descending order for a reverse iterator. -/
theorem iterator_at_version {h : List Block} (ho : Orderly h) (skip : Bool) {store : List UInt8} (hst : (47 : UInt8) ∉ store)
    {start stop : Option (List UInt8)} (hstart : start ≠ some []) (hstop : stop ≠ some []) (reverse : Bool)
    {upTo : Option Nat} (hu : ∀ v, upTo = some v → v < 2 ^ 63) :
    ∃ l, iteratorAtVersion (runBlocks skip h) store start stop (upTo.map Int.ofNat) reverse = some l ∧
      l.Pairwise (fun a b => if reverse then b.1 < a.1 else a.1 < b.1) ∧
      ∀ k x, (k, x) ∈ l ↔ ((∀ a, start = some a → a ≤ k) ∧ (∀ b, stop = some b → k < b) ∧ stateAfter (counted skip h) upTo store k = some x) := by
  obtain ⟨r1, r2⟩ := readTS_spec hu
  obtain ⟨w1, w2, w3⟩ := writesOf_ordered ho
  have w2' : ∀ w ∈ writesOf h, w.1 < 2 ^ 64 := fun w hw => Nat.lt_trans (w2 w hw) (by decide)
  have hs : (runBlocks skip h).db.Pairwise Before := by
    rw [runBlocks_db]
    exact (writeAll_newest (writesOf h) .nil w2' w1 (by intro x hx; cases hx)).1
  have hvis := visible_sorted (v := readTS (upTo.map Int.ofNat)) hs (last := none) (by intro l h; cases h)
  have hmem := visible_mem (v := readTS (upTo.map Int.ofNat)) hs (last := none) (by intro l h; cases h)
  rw [shown_eq hs store hstart hstop]
  refine ⟨_, rfl, ?_, ?_⟩
  · -- order
    have hfilt := hvis.filter (fun r => decide ((iterateWithPrefix (storePrefix store) start stop).1 ≤ r.key) &&
          (iterateWithPrefix (storePrefix store) start stop).2.all (fun e => decide (r.key < e)) && !((runBlocks skip h).skipVersionZero && r.ts == 0))
    have hpre : ∀ r ∈ (visible (readTS (upTo.map Int.ofNat)) none (runBlocks skip h).db).filter
        (fun r => decide ((iterateWithPrefix (storePrefix store) start stop).1 ≤ r.key) &&
          (iterateWithPrefix (storePrefix store) start stop).2.all (fun e => decide (r.key < e)) && !((runBlocks skip h).skipVersionZero && r.ts == 0)),
        ∃ k, r.key = storePrefix store ++ k := by
      intro r hr
      have hr2 := (List.mem_filter.1 hr).2
      rw [Bool.and_eq_true, Bool.and_eq_true, decide_eq_true_eq] at hr2
      obtain ⟨k, e, _⟩ := (range_iff store start stop r.key).1 hr2.1
      exact ⟨k, e⟩
    generalize (visible (readTS (upTo.map Int.ofNat)) none (runBlocks skip h).db).filter _ = rows at hfilt hpre
    rw [List.pairwise_map]
    have hdrop : ∀ a ∈ rows, ∀ b ∈ rows, (a.key.drop (storePrefix store).length < b.key.drop (storePrefix store).length ↔ a.key < b.key) := by
      intro a ha b hb
      obtain ⟨k, e⟩ := hpre a ha
      obtain ⟨l, f⟩ := hpre b hb
      rw [e, f, List.drop_left, List.drop_left, lt_append]
    cases reverse with
    | false =>
      simp only [Bool.false_eq_true, if_false]
      exact (List.pairwise_iff_forall_sublist.2 (fun {a b} hab => by
        have hm := hab.subset
        rw [hdrop a (hm (by simp)) b (hm (by simp))]
        exact List.pairwise_iff_forall_sublist.1 hfilt hab))
    | true =>
      simp only [if_true]
      rw [List.pairwise_reverse]
      exact (List.pairwise_iff_forall_sublist.2 (fun {a b} hab => by
        have hm := hab.subset
        rw [hdrop a (hm (by simp)) b (hm (by simp))]
        exact List.pairwise_iff_forall_sublist.1 hfilt hab))
  · -- membership
    intro k x
    rw [← get_at_version ho skip hst k hu, get_shown]
    have hnew := getEntry_newest (by rw [runBlocks_db] at hs; exact hs) (storePrefix store ++ k) r1
    have hrev : ∀ (l : List Row) (r : Row), (r ∈ (if reverse = true then l.reverse else l)) ↔ r ∈ l := by
      intro l r; cases reverse <;> simp
    have key : ((k, x) ∈ List.map (fun r => (r.key.drop (storePrefix store).length, r.value))
        (if reverse = true then ((visible (readTS (upTo.map Int.ofNat)) none (runBlocks skip h).db).filter
        (fun r => decide ((iterateWithPrefix (storePrefix store) start stop).1 ≤ r.key) &&
          (iterateWithPrefix (storePrefix store) start stop).2.all (fun e => decide (r.key < e)) && !((runBlocks skip h).skipVersionZero && r.ts == 0))).reverse
          else (visible (readTS (upTo.map Int.ofNat)) none (runBlocks skip h).db).filter
        (fun r => decide ((iterateWithPrefix (storePrefix store) start stop).1 ≤ r.key) &&
          (iterateWithPrefix (storePrefix store) start stop).2.all (fun e => decide (r.key < e)) && !((runBlocks skip h).skipVersionZero && r.ts == 0)))) ↔
        ∃ t, ((∀ a, start = some a → a ≤ k) ∧ (∀ b, stop = some b → k < b)) ∧ ¬(skip = true ∧ t = 0) ∧
          Newest (runBlocks skip h).db (storePrefix store ++ k) (readTS (upTo.map Int.ofNat)) (some (t, some x)) := by
      rw [List.mem_map]
      constructor
      · rintro ⟨r, hr, e⟩
        rw [hrev, List.mem_filter, Bool.and_eq_true, Bool.and_eq_true, decide_eq_true_eq, hmem r] at hr
        obtain ⟨⟨_, hn⟩, hrange, hskip⟩ := hr
        obtain ⟨l, e2, h1, h2⟩ := (range_iff store start stop r.key).1 hrange
        rw [e2, List.drop_left] at e
        injection e with e3 e4
        subst e3
        subst e4
        refine ⟨r.ts, ⟨h1, h2⟩, ?_, by rw [e2] at hn; exact hn⟩
        rintro ⟨hs1, hs2⟩
        rw [runBlocks_skip, hs1, hs2] at hskip
        cases hskip
      · rintro ⟨t, ⟨h1, h2⟩, h3, hn⟩
        refine ⟨⟨storePrefix store ++ k, t, x⟩, ?_, by simp⟩
        rw [hrev, List.mem_filter, Bool.and_eq_true, Bool.and_eq_true, decide_eq_true_eq, hmem]
        refine ⟨⟨by simp, hn⟩, (range_iff store start stop _).2 ⟨k, rfl, h1, h2⟩, ?_⟩
        rw [runBlocks_skip]
        cases skip with
        | false => rfl
        | true =>
          have : t ≠ 0 := fun h => h3 ⟨rfl, h⟩
          simp [this]
    refine key.trans ?_
    rw [runBlocks_db]
    constructor
    · rintro ⟨t, ⟨h1, h2⟩, h3, hn⟩
      refine ⟨h1, h2, ?_⟩
      rw [newest_unique (by rw [runBlocks_db] at hs; exact hs) hnew hn]
      show (if skip = true ∧ t = 0 then none else some x) = some x
      rw [if_neg h3]
    · rintro ⟨h1, h2, h3⟩
      generalize getEntry _ _ _ = r at hnew h3
      cases r with
      | none => cases h3
      | some r =>
        have h3' : (if skip = true ∧ r.1 = 0 then none else r.2) = some x := h3
        split at h3'
        · cases h3'
        · rename_i hc
          exact ⟨r.1, ⟨h1, h2⟩, hc, by rw [← h3']; exact hnew⟩

/-- The latest version reported is that of the last block. -/
theorem latest_version {h : List Block} (skip : Bool) (b : Block) : getLatestVersion (runBlocks skip (h ++ [b])) = b.version := by
  unfold runBlocks
  rw [List.foldl_append]
  rfl

/-- Writing a block again changes no read: after a crash between writing the versioned store and committing the state, the block is replayed. -/
theorem replay_harmless {h : List Block} {b : Block} (ho : Orderly (h ++ [b])) (skip : Bool) {store : List UInt8} (hst : (47 : UInt8) ∉ store)
    (key : List UInt8) {upTo : Option Nat} (hu : ∀ v, upTo = some v → v < 2 ^ 63) :
    getAtVersion (runBlocks skip (h ++ [b, b])) store key (upTo.map Int.ofNat) =
      getAtVersion (runBlocks skip (h ++ [b])) store key (upTo.map Int.ofNat) := by
  have ho2 : Orderly (h ++ [b, b]) := by
    refine ⟨?_, ?_⟩
    · have h1 := ho.1
      rw [List.pairwise_append] at h1 ⊢
      refine ⟨h1.1, by simp, ?_⟩
      intro x hx y hy
      exact h1.2.2 x hx y (by simpa using hy)
    · intro x hx
      exact ho.2 x (by simpa using hx)
  rw [get_at_version ho skip hst key hu, get_at_version ho2 skip hst key hu]
  have idem : ∀ (cs : List StorePair) (a : Option (List UInt8)), (cs.foldl (change store key) (cs.foldl (change store key) a)) = cs.foldl (change store key) a := by
    have last : ∀ (cs : List StorePair), (∀ a, cs.foldl (change store key) a = a) ∨ (∃ y, ∀ a, cs.foldl (change store key) a = y) := by
      intro cs
      induction cs with
      | nil => exact .inl (fun _ => rfl)
      | cons p cs ih =>
        rcases ih with ih | ⟨y, ih⟩
        · by_cases hk : p.store = store ∧ p.key = key
          · right
            refine ⟨if p.delete then none else some p.value, fun a => ?_⟩
            rw [List.foldl_cons, ih]
            exact if_pos hk
          · left
            intro a
            rw [List.foldl_cons, ih]
            exact if_neg hk
        · exact .inr ⟨y, fun a => by rw [List.foldl_cons, ih]⟩
    intro cs a
    rcases last cs with h | ⟨y, h⟩
    · rw [h]
    · rw [h, h]
  unfold stateAfter counted
  cases skip with
  | false =>
    simp only [Bool.false_eq_true, if_false, List.foldl_append, List.foldl_cons, List.foldl_nil]
    split
    · exact idem _ _
    · rfl
  | true =>
    simp only [if_true, List.filter_append, List.foldl_append]
    rw [List.filter_cons, List.filter_cons, List.filter_nil]
    split
    · simp only [List.foldl_cons, List.foldl_nil]
      split
      · exact idem _ _
      · rfl
    · rfl

/-! ### Building from sorted files -/

/-- The entry written to an SST file for an item of the sorter (convert_to_sst.go 153-179). `none` is an item that cannot be decoded. -/
def sstEntry (store : List UInt8) (item : Item) : Option Entry :=
  (decodeItem item).map (fun d => ⟨internalKey (storePrefix store ++ d.2.key) d.1, if d.2.delete then none else some d.2.value⟩)

/-- Feeding change sets directly. -/
def fed (store : List UInt8) (entries : List (Nat × Pair)) : List Entry :=
  writeAll [] (entries.map (fun e => (e.1, ⟨store, e.2.delete, e.2.key, e.2.value⟩)))

theorem sorted_ext {l m : List Entry} (hl : l.Pairwise Before) (hm : m.Pairwise Before) (h : ∀ x, x ∈ l ↔ x ∈ m) : l = m := by
  induction l generalizing m with
  | nil =>
    cases m with
    | nil => rfl
    | cons y ys => exact absurd ((h y).2 List.mem_cons_self) (by simp)
  | cons x xs ih =>
    cases m with
    | nil => exact absurd ((h x).1 List.mem_cons_self) (by simp)
    | cons y ys =>
      have hl' := List.pairwise_cons.1 hl
      have hm' := List.pairwise_cons.1 hm
      have hxy : x = y := by
        rcases List.mem_cons.1 ((h x).1 List.mem_cons_self) with e | e
        · exact e
        · rcases List.mem_cons.1 ((h y).2 List.mem_cons_self) with f | f
          · exact f.symm
          · exact absurd (before_trans (hl'.1 y f) (hm'.1 x e)) (before_irrefl x)
      subst hxy
      rw [ih hl'.2 hm'.2]
      intro z
      constructor
      · intro hz
        rcases List.mem_cons.1 ((h z).1 (List.mem_cons_of_mem _ hz)) with e | e
        · subst e; exact absurd (hl'.1 z hz) (before_irrefl z)
        · exact e
      · intro hz
        rcases List.mem_cons.1 ((h z).2 (List.mem_cons_of_mem _ hz)) with e | e
        · subst e; exact absurd (hm'.1 z hz) (before_irrefl z)
        · exact e

/-- The entry of one version and pair. -/
def feedEntry (store : List UInt8) (e : Nat × Pair) : Entry := entryOf e.1 ⟨store, e.2.delete, e.2.key, e.2.value⟩

theorem sstEntry_encode (store : List UInt8) {e : Nat × Pair} (h : ItemOk e.1 e.2) : sstEntry store (encodeItem e.1 e.2) = some (feedEntry store e) := by
  unfold sstEntry
  rw [decode_encode h]
  unfold feedEntry entryOf kept
  cases hd : e.2.delete <;> simp [hd]

theorem fed_sorted_mem (store : List UInt8) : ∀ (entries : List (Nat × Pair)) (db : List Entry), db.Pairwise Before →
    (∀ e ∈ entries, e.1 < 2 ^ 64) → entries.Pairwise (fun a b => ¬(a.1 = b.1 ∧ a.2.key = b.2.key)) →
    (∀ x ∈ db, ∀ e ∈ entries, ¬(x.K = storePrefix store ++ e.2.key ∧ x.T = e.1)) →
    ((entries.foldl (fun db e => putEntry (feedEntry store e) db) db).Pairwise Before ∧
      ∀ x, x ∈ entries.foldl (fun db e => putEntry (feedEntry store e) db) db ↔ x ∈ db ∨ ∃ e ∈ entries, x = feedEntry store e) := by
  intro entries
  induction entries with
  | nil => intro db hs _ _ _; exact ⟨hs, fun x => by simp⟩
  | cons e es ih =>
    intro db hs hv hd hdb
    have hd' := List.pairwise_cons.1 hd
    have hK : (feedEntry store e).K = storePrefix store ++ e.2.key := entryOf_K _ _
    have hT : (feedEntry store e).T = e.1 := entryOf_T (hv e List.mem_cons_self) _
    obtain ⟨i1, i2⟩ := ih (putEntry (feedEntry store e) db) (put_sorted hs) (fun x hx => hv x (List.mem_cons_of_mem _ hx)) hd'.2 (by
      intro x hx f hf h
      rcases (mem_put hs).1 hx with rfl | hx
      · rw [hK, hT] at h
        exact hd'.1 f hf ⟨h.2, List.append_cancel_left h.1⟩
      · exact hdb x hx.1 f (List.mem_cons_of_mem _ hf) h)
    refine ⟨i1, fun x => ?_⟩
    rw [List.foldl_cons, i2 x, mem_put hs, hK, hT]
    constructor
    · rintro ((h | h) | ⟨f, hf, h⟩)
      · exact .inr ⟨e, List.mem_cons_self, h⟩
      · exact .inl h.1
      · exact .inr ⟨f, List.mem_cons_of_mem _ hf, h⟩
    · rintro (h | ⟨f, hf, h⟩)
      · exact .inl (.inr ⟨h, hdb x h e List.mem_cons_self⟩)
      · rcases List.mem_cons.1 hf with rfl | hf
        · exact .inl (.inl h)
        · exact .inr ⟨f, hf, h⟩

/-- Building a store from files written in the order of the external sorter gives exactly the column family that feeding the change sets one
by one gives; in particular the keys of the files are strictly ascending, as RocksDB requires. Every version changes a key at most once. -/
theorem built_from_files {limit : Nat} {store : List UInt8} {entries : List (Nat × Pair)} {out : List Item}
    (hok : ∀ e ∈ entries, ItemOk e.1 e.2 ∧ (encodeItem e.1 e.2).length < 2 ^ 63)
    (hd : entries.Pairwise (fun a b => ¬(a.1 = b.1 ∧ a.2.key = b.2.key)))
    (hs : Sorts limit (entries.map (fun e => encodeItem e.1 e.2)) out) :
    out.map (sstEntry store) = (fed store entries).map some ∧ (fed store entries).Pairwise (fun a b => compareKeys a.ikey b.ikey = .lt) := by
  have hl : ∀ x ∈ entries.map (fun e => encodeItem e.1 e.2), x.length < 2 ^ 63 := by
    intro x hx
    obtain ⟨e, he, rfl⟩ := List.mem_map.1 hx
    exact (hok e he).2
  obtain ⟨p, srt⟩ := sorter_sorts hl hs
  have hfed : fed store entries = entries.foldl (fun db e => putEntry (feedEntry store e) db) [] := by
    unfold fed writeAll
    rw [List.foldl_map]
    rfl
  obtain ⟨f1, f2⟩ := fed_sorted_mem store entries [] .nil (fun e he => (hok e he).1.2) hd (by intro x hx; cases hx)
  rw [← hfed] at f1 f2
  refine ⟨?_, f1.imp (fun h => compareKeys_lt.2 h)⟩
  -- the sorted items come from entries
  have hout : ∀ (o : List Item), (∀ x ∈ o, ∃ e ∈ entries, x = encodeItem e.1 e.2) →
      ∃ es : List (Nat × Pair), o = es.map (fun e => encodeItem e.1 e.2) ∧ ∀ e ∈ es, e ∈ entries := by
    intro o
    induction o with
    | nil => intro _; exact ⟨[], rfl, by simp⟩
    | cons x xs ih =>
      intro h
      obtain ⟨e, he, rfl⟩ := h x List.mem_cons_self
      obtain ⟨es, h1, h2⟩ := ih (fun y hy => h y (List.mem_cons_of_mem _ hy))
      refine ⟨e :: es, by rw [h1]; rfl, ?_⟩
      intro f hf
      rcases List.mem_cons.1 hf with rfl | hf
      · exact he
      · exact h2 f hf
  obtain ⟨es, he1, he2⟩ := hout out (fun x hx => by
    obtain ⟨e, he, h⟩ := List.mem_map.1 (p.mem_iff.1 hx)
    exact ⟨e, he, h.symm⟩)
  have hmap : out.map (sstEntry store) = (es.map (feedEntry store)).map some := by
    rw [he1, List.map_map, List.map_map]
    apply List.map_congr_left
    intro e he
    exact sstEntry_encode store (hok e (he2 e he)).1
  rw [hmap]
  congr 1
  -- no repetitions
  have hinj : ∀ e ∈ entries, ∀ f ∈ entries, e.1 = f.1 → e.2.key = f.2.key → e = f := by
    intro e he f hf h1 h2
    apply Decidable.byContradiction
    intro hne
    have key : ∀ (l : List (Nat × Pair)), l.Pairwise (fun a b => ¬(a.1 = b.1 ∧ a.2.key = b.2.key)) → e ∈ l → f ∈ l → False := by
      intro l
      induction l with
      | nil => intro _ h; cases h
      | cons x xs ih =>
        intro hp h5 h6
        have hp' := List.pairwise_cons.1 hp
        rcases List.mem_cons.1 h5 with g5 | g5 <;> rcases List.mem_cons.1 h6 with g6 | g6
        · exact hne (g5.trans g6.symm)
        · rw [← g5] at hp'; exact hp'.1 f g6 ⟨h1, h2⟩
        · rw [← g6] at hp'; exact hp'.1 e g5 ⟨h1.symm, h2.symm⟩
        · exact ih hp'.2 g5 g6
    exact key entries hd he hf
  have hnd : entries.Nodup := hd.imp (fun h e => h ⟨by rw [e], by rw [e]⟩)
  have hnd2 : (entries.map (fun e => encodeItem e.1 e.2)).Nodup := by
    rw [List.nodup_iff_pairwise_ne, List.pairwise_map]
    refine List.pairwise_iff_forall_sublist.2 (fun {a b} hab => ?_)
    intro h
    have hm := hab.subset
    have ha := hok a (hm (by simp))
    have hb := hok b (hm (by simp))
    have hk : a.2.key = b.2.key := by rw [← keyOf_encode ha.1, ← keyOf_encode hb.1, h]
    have ht : le 8 a.1 = le 8 b.1 := by rw [← tsOf_encode ha.1, ← tsOf_encode hb.1, h]
    exact List.pairwise_iff_forall_sublist.1 hd hab ⟨le_inj ha.1.2 hb.1.2 ht, hk⟩
  have hnd3 : out.Nodup := p.nodup_iff.2 hnd2
  have hsorted : (es.map (feedEntry store)).Pairwise Before := by
    rw [he1] at srt hnd3
    rw [List.pairwise_map]
    unfold SortedBy at srt
    rw [List.pairwise_map] at srt
    rw [List.nodup_iff_pairwise_ne, List.pairwise_map] at hnd3
    refine List.pairwise_iff_forall_sublist.2 (fun {a b} hab => ?_)
    have h1 := List.pairwise_iff_forall_sublist.1 srt hab
    have h2 := List.pairwise_iff_forall_sublist.1 hnd3 hab
    have hm := hab.subset
    have ha := he2 a (hm (by simp))
    have hb := he2 b (hm (by simp))
    have h1' : ¬ _ := fun h => absurd ((less_encode (hok b hb).1 (hok a ha).1).2 h) (by rw [h1]; decide)
    have hKa : (feedEntry store a).K = storePrefix store ++ a.2.key := entryOf_K _ _
    have hKb : (feedEntry store b).K = storePrefix store ++ b.2.key := entryOf_K _ _
    have hTa : (feedEntry store a).T = a.1 := entryOf_T (hok a ha).1.2 _
    have hTb : (feedEntry store b).T = b.1 := entryOf_T (hok b hb).1.2 _
    unfold Before
    rw [hKa, hKb, hTa, hTb, lt_append]
    rcases lt_or_eq_or_gt a.2.key b.2.key with h | h | h
    · exact .inl h
    · refine .inr ⟨by rw [h], ?_⟩
      have h3 : ¬ a.1 < b.1 := fun h3 => h1' (.inr ⟨h.symm, h3⟩)
      have h4 : a.1 ≠ b.1 := fun h4 => h2 (by rw [hinj a ha b hb h4 h])
      omega
    · exact absurd (.inl h) h1'
  apply sorted_ext hsorted f1
  intro x
  rw [f2 x]
  constructor
  · intro hx
    obtain ⟨e, he, rfl⟩ := List.mem_map.1 hx
    exact .inr ⟨e, he2 e he, rfl⟩
  · rintro (h | ⟨e, he, rfl⟩)
    · cases h
    · have : encodeItem e.1 e.2 ∈ out := p.mem_iff.2 (List.mem_map.2 ⟨e, he, rfl⟩)
      rw [he1] at this
      obtain ⟨f, hf, hfe⟩ := List.mem_map.1 this
      have hb := he2 f hf
      have hk : f.2.key = e.2.key := by rw [← keyOf_encode (hok f hb).1, ← keyOf_encode (hok e he).1, hfe]
      have ht : le 8 f.1 = le 8 e.1 := by rw [← tsOf_encode (hok f hb).1, ← tsOf_encode (hok e he).1, hfe]
      have := hinj f hb e he (le_inj (hok f hb).1.2 (hok e he).1.2 ht) hk
      rw [← this]
      exact List.mem_map.2 ⟨f, hf, rfl⟩

/-! ### Concrete cases -/

def bankName : List UInt8 := [98, 97, 110, 107]
def someBlocks : List Block :=
  [⟨1, [⟨bankName, false, [1], [10]⟩, ⟨[97], false, [1], [20]⟩]⟩, ⟨2, [⟨bankName, true, [1], []⟩, ⟨bankName, false, [2], [30]⟩]⟩,
   ⟨2, [⟨bankName, true, [1], []⟩, ⟨bankName, false, [2], [30]⟩]⟩, ⟨4, [⟨bankName, false, [1], [40]⟩]⟩]

instance (h : List Block) : Decidable (Orderly h) := by unfold Orderly; infer_instance

example : Orderly someBlocks := by decide +kernel
example : getAtVersion (runBlocks false someBlocks) bankName [1] (some 1) = some [10] ∧ getAtVersion (runBlocks false someBlocks) bankName [1] (some 3) = none ∧
    iteratorAtVersion (runBlocks false someBlocks) bankName none none none true = some [([2], [30]), ([1], [40])] := by decide +kernel

/-- After a rollback of the chain to an earlier height, the versioned store keeps the entries of the abandoned blocks: reading the new block 2
shows a key that only the abandoned block 2 had set, and still reports it at later heights. -/
theorem rollback_leaves_abandoned :
    let abandoned : Block := ⟨2, [⟨bankName, false, [7], [1]⟩]⟩
    let real : List Block := [⟨1, [⟨bankName, false, [1], [10]⟩]⟩, ⟨2, []⟩, ⟨3, []⟩]
    stateAfter real (some 2) bankName [7] = none ∧
    getAtVersion (runBlocks false [⟨1, [⟨bankName, false, [1], [10]⟩]⟩, abandoned, ⟨2, []⟩, ⟨3, []⟩]) bankName [7] (some 2) = some [1] ∧
    getAtVersion (runBlocks false [⟨1, [⟨bankName, false, [1], [10]⟩]⟩, abandoned, ⟨2, []⟩, ⟨3, []⟩]) bankName [7] (some 3) = some [1] := by
  decide +kernel

/-- Store names with a slash run into each other: the key "b/x" of store "a" is the key "x" of store "a/b". -/
theorem slash_names_collide :
    getAtVersion (runBlocks false [⟨1, [⟨[97], false, [98, 47, 120], [1]⟩]⟩]) [97, 47, 98] [120] none = some [1] := by decide +kernel

/-- A negative version reads the latest state instead of failing. -/
theorem negative_version_reads_latest :
    getAtVersion (runBlocks false someBlocks) bankName [1] (some (-1)) = some [40] := by decide +kernel

end VersionDB
