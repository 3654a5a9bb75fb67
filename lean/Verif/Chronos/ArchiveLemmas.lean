import Verif.Chronos.ArchiveSpec
import Verif.Hyperion.ClaimsLemmas
/-!
# Lemmas about the archive of scheduled calls
-/
namespace CronArchive
open Hyperion (Str dec)

theorem snoc_ind {α : Type} {P : List α → Prop} (h0 : P []) (hs : ∀ l a, P l → P (l ++ [a])) (l : List α) : P l := by
  rw [← l.reverse_reverse]
  induction l.reverse with
  | nil => exact h0
  | cons a r ih => rw [List.reverse_cons]; exact hs _ _ ih

/-! ## Keys -/

theorem dec_ne_nil (n : Nat) : dec n ≠ [] := by
  unfold dec Hyperion.decAux
  split <;> simp

/-- The key is one the program uses. -/
def Good : Key → Prop
  | .hash x => ∃ r, x = 48 :: 120 :: r
  | _ => True

/-- Not an entry of the index by call. -/
def NotIndex : Key → Prop
  | .index _ _ => False
  | _ => True

theorem dec_head {n : Nat} {a : UInt8} {r : Str} (h : dec n = a :: r) : 48 ≤ a.toNat ∧ a.toNat ≤ 57 :=
  Hyperion.dec_digits n a (h ▸ List.mem_cons_self)

theorem dec_snd {n : Nat} {a b : UInt8} {r : Str} (h : dec n = a :: b :: r) : 48 ≤ b.toNat ∧ b.toNat ≤ 57 :=
  Hyperion.dec_digits n b (h ▸ List.mem_cons_of_mem _ List.mem_cons_self)

theorem dec_ne_hex {n : Nat} {r : Str} : dec n ≠ 48 :: 120 :: r := fun h => by
  have := (dec_snd h).2
  revert this
  decide

/-- Keys that are not entries of the index are told apart by their texts. -/
theorem text_inj {k k' : Key} (g : Good k) (g' : Good k') (i : NotIndex k) (h : text k = text k') : k = k' := by
  cases k <;> cases k' <;> simp only [text, List.cons_append, List.nil_append] at h
  all_goals first
    | exact i.elim
    | rfl
    | (exfalso; revert h; simp; done)
    | skip
  all_goals first
    | (exfalso; have := dec_head h; revert this; decide)
    | (exfalso; have := dec_head h.symm; revert this; decide)
    | skip
  · have h := List.append_cancel_left (as := [116, 120, 58]) h
    rw [Hyperion.dec_inj h]
  all_goals first
    | (rw [h]; done)
    | (obtain ⟨r, hr⟩ := g; exfalso; rw [hr] at h; revert h; simp; done)
    | (obtain ⟨r, hr⟩ := g'; exfalso; rw [hr] at h; revert h; simp; done)
    | (obtain ⟨r, hr⟩ := g; rw [hr] at h; exact absurd h.symm dec_ne_hex)
    | (obtain ⟨r, hr⟩ := g'; rw [hr] at h; exact absurd h dec_ne_hex)
    | (rw [Hyperion.dec_inj h]; done)
    | (have h := List.append_cancel_left (as := [98, 58]) h; rw [Hyperion.dec_inj h])

/-- The texts of two entries of the index are the same when the numbers, written one after the other, are. -/
theorem text_index {k : Key} (g : Good k) {c n : Nat} (h : text k = text (.index c n)) :
    ∃ c' n', k = .index c' n' ∧ dec c' ++ dec n' = dec c ++ dec n := by
  cases k with
  | index c' n' =>
    refine ⟨c', n', rfl, ?_⟩
    simp only [text, List.append_assoc] at h
    exact List.append_cancel_left (as := [110, 105, 100, 58]) h
  | _ => exact absurd (text_inj g (k' := .index c n) trivial trivial h) (by simp)

/-! ## Reading and writing -/

/-- Reading on one side of the switch. -/
def rd (s : State) (σ : Bool) (k : Key) : Option Val := if σ then KV.get s.arch (text k) else KV.get s.old k

theorem read_eq (s : State) (h : Nat) (k : Key) : read s h k = rd s (late h) k := rfl

theorem sameSide_iff (h b : Nat) : SameSide h b ↔ late b = late h := by
  unfold SameSide late
  rw [decide_eq_decide]
  exact Iff.comm

theorem rd_put (s : State) (h : Nat) {k : Key} (g : Good k) (v : Val) (σ : Bool) {k' : Key} (g' : Good k')
    (i : NotIndex k') : rd (put s h k v) σ k' = if late h = σ ∧ k' = k then some v else rd s σ k' := by
  unfold rd put
  cases hl : late h <;> cases σ
  · simp [KV.get_set]
  · simp
  · simp
  · simp only [if_true, true_and, KV.get_set]
    by_cases e : k' = k
    · rw [e, if_pos rfl, if_pos rfl]
    · rw [if_neg e, if_neg (fun hh => e (text_inj g' g i hh))]

theorem rd_put_index (s : State) (h : Nat) (c n : Nat) (v : Val) (c' n' : Nat) :
    rd (put s h (.index c n) v) true (.index c' n') =
      if late h = true ∧ dec c' ++ dec n' = dec c ++ dec n then some v else rd s true (.index c' n') := by
  unfold rd put
  cases hl : late h
  · simp
  · simp only [if_true, true_and, KV.get_set]
    by_cases e : dec c' ++ dec n' = dec c ++ dec n
    · rw [if_pos e, if_pos (by simp only [text, List.append_assoc, e])]
    · rw [if_neg e, if_neg]
      intro hh
      simp only [text, List.append_assoc] at hh
      exact e (List.append_cancel_left (as := [110, 105, 100, 58]) hh)

theorem rd_put_other (s : State) (h : Nat) {k : Key} (g : Good k) (i : NotIndex k) (v : Val) (c n : Nat) :
    rd (put s h k v) true (.index c n) = rd s true (.index c n) := by
  unfold rd put
  cases hl : late h
  · simp
  · simp only [if_true, KV.get_set]
    rw [if_neg]
    intro hh
    obtain ⟨_, _, e, _⟩ := text_index g hh.symm
    rw [e] at i
    exact i

theorem put_next (s : State) (h : Nat) (k : Key) (v : Val) : (put s h k v).next = s.next := by
  unfold put; split <;> rfl

theorem hashesOf_eq (s : State) (h b : Nat) :
    hashesOf s h b = match rd s (late h) (.block b) with | some (.hashes l) => some l | _ => none := rfl

theorem hashesOf_put (s : State) (h : Nat) {k : Key} (g : Good k) (hk : ∀ b, k ≠ .block b) (v : Val) (h' b : Nat) :
    hashesOf (put s h k v) h' b = hashesOf s h' b := by
  rw [hashesOf_eq, hashesOf_eq, rd_put s h g v _ (k' := .block b) trivial trivial,
    if_neg (fun e => hk b e.2.symm)]

theorem rd_record {s : State} {h c : Nat} {x : Str} {b : Nat} (hx : Good (.hash x)) (σ : Bool) {k : Key} (g : Good k)
    (i : NotIndex k) : rd (record s h c x b) σ k =
      if late h = σ ∧ k = .block h then some (.hashes ((hashesOf s h h).getD [] ++ [x]))
      else if late h = σ ∧ k = .hash x then some (.num s.next)
      else if late h = σ ∧ k = .tx s.next then some (.tx ⟨s.next, h, x, c, b⟩)
      else rd s σ k := by
  show rd (put _ _ _ _) σ k = _
  rw [rd_put _ _ (k := .block h) trivial _ _ g i, hashesOf_put _ _ hx (by simp),
    hashesOf_put _ _ (k := .index c s.next) trivial (by simp), hashesOf_put _ _ (k := .tx s.next) trivial (by simp),
    rd_put _ _ hx _ _ g i, rd_put _ _ (k := .index c s.next) trivial _ _ g i,
    rd_put _ _ (k := .tx s.next) trivial _ _ g i]
  have : ¬ (late h = σ ∧ k = .index c s.next) := by
    rintro ⟨_, rfl⟩
    exact i
  rw [if_neg this]

theorem rd_record_index {s : State} {h c : Nat} {x : Str} {b : Nat} (hx : Good (.hash x)) (c' n' : Nat) :
    rd (record s h c x b) true (.index c' n') =
      if late h = true ∧ dec c' ++ dec n' = dec c ++ dec s.next then some .nothing else rd s true (.index c' n') := by
  show rd (put _ _ _ _) true _ = _
  rw [rd_put_other _ _ (k := .block h) trivial trivial, rd_put_other _ _ hx trivial, rd_put_index,
    rd_put_other _ _ (k := .tx s.next) trivial trivial]

theorem record_next (s : State) (h c : Nat) (x : Str) (b : Nat) : (record s h c x b).next = s.next + 1 := rfl

/-! ## The log -/

theorem recordings_append (a b : List Op) : recordings (a ++ b) = recordings a ++ recordings b := by
  induction a with
  | nil => rfl
  | cons o a ih =>
    rw [List.cons_append]
    cases o with
    | executed h c x d g => cases g <;> simp [recordings, ih]
    | _ => simp [recordings, ih]

/-- What one operation adds. -/
def added (n : Nat) : Op → List Tx
  | .cancelled h c x b => [⟨n, h, x, c, b⟩]
  | .executed h c x b (some _) => [⟨n, h, x, c, b⟩]
  | _ => []

theorem log_length (ops : List Op) : (log ops).length = (recordings ops).length := by simp [log]

theorem log_snoc (ops : List Op) (op : Op) : log (ops ++ [op]) = log ops ++ added ((log ops).length + 1) op := by
  rw [log_length]
  unfold log
  rw [recordings_append, List.zipIdx_append, List.map_append]
  congr 1
  cases op with
  | executed h c x d g => cases g <;> simp [recordings, added, Nat.add_comm]
  | _ => simp [recordings, added, Nat.add_comm]

theorem log_number {ops : List Op} {t : Tx} (h : t ∈ log ops) : 1 ≤ t.number ∧ t.number ≤ (log ops).length := by
  induction ops using snoc_ind with
  | h0 => cases h
  | hs l a ih =>
    rw [log_snoc] at h ⊢
    rw [List.length_append]
    rcases List.mem_append.1 h with h | h
    · have := ih h; omega
    · cases a with
      | cancelled => simp [added] at h; rw [h]; simp [added]
      | executed h' c x d g =>
        cases g with
        | none => cases h
        | some => simp [added] at h; rw [h]; simp [added]
      | _ => cases h

theorem log_sorted (ops : List Op) : (log ops).Pairwise (fun a b => a.number < b.number) := by
  induction ops using snoc_ind with
  | h0 => exact .nil
  | hs l a ih =>
    rw [log_snoc, List.pairwise_append]
    refine ⟨ih, ?_, ?_⟩
    · cases a with
      | executed h c x d g => cases g <;> simp [added]
      | _ => simp [added]
    · intro t ht u hu
      have := log_number ht
      cases a with
      | cancelled => simp [added] at hu; rw [hu]; simp only; omega
      | executed h' c x d g =>
        cases g with
        | none => cases hu
        | some => simp [added] at hu; rw [hu]; simp only; omega
      | _ => cases hu

theorem log_inj {ops : List Op} {t u : Tx} (ht : t ∈ log ops) (hu : u ∈ log ops) (h : t.number = u.number) : t = u := by
  have := log_sorted ops
  generalize log ops = l at *
  induction l with
  | nil => cases ht
  | cons a l ih =>
    rw [List.pairwise_cons] at this
    rcases List.mem_cons.1 ht with e | ht' <;> rcases List.mem_cons.1 hu with e' | hu'
    · rw [e, e']
    · have := this.1 _ hu'; rw [← e] at this; omega
    · have := this.1 _ ht'; rw [← e'] at this; omega
    · exact ih ht' hu' this.2

theorem hex_of_snoc {ops : List Op} {op : Op} (h : HexHashes (ops ++ [op])) : HexHashes ops := fun t ht =>
  h t (by rw [log_snoc]; exact List.mem_append_left _ ht)

theorem own_of_snoc {ops : List Op} {op : Op} (h : OwnHashes (ops ++ [op])) : OwnHashes ops := by
  unfold OwnHashes at h
  rw [log_snoc, List.map_append, List.nodup_append] at h
  exact h.1

theorem run_snoc (ops : List Op) (op : Op) : run (ops ++ [op]) = step (run ops) op := by
  unfold run; rw [List.foldl_append]; rfl

/-! ## What one step does -/

/-- Reading after a recording, by what was read. -/
theorem step_rd {ops : List Op} {op : Op} (hh : HexHashes (ops ++ [op])) (hn : (run ops).next = (log ops).length + 1)
    (σ : Bool) {k : Key} (g : Good k) (i : NotIndex k) (hk : ∀ n, k ≠ .cron n) (h1 : k ≠ .archived) (h2 : k ≠ .refunded)
    (h3 : k ≠ .executed) (h4 : k ≠ .total) :
    rd (step (run ops) op) σ k = match added ((log ops).length + 1) op with
      | [t] =>
        if late t.block = σ ∧ k = .block t.block then
          some (.hashes ((hashesOf (run ops) t.block t.block).getD [] ++ [t.hash]))
        else if late t.block = σ ∧ k = .hash t.hash then some (.num t.number)
        else if late t.block = σ ∧ k = .tx t.number then some (.tx t)
        else rd (run ops) σ k
      | _ => rd (run ops) σ k := by
  have hx : ∀ t ∈ added ((log ops).length + 1) op, Good (.hash t.hash) := fun t ht =>
    hh t (by rw [log_snoc]; exact List.mem_append_right _ ht)
  cases op with
  | cancelled h c x b =>
    have hx := hx _ (List.mem_singleton.2 rfl)
    show rd (record _ _ _ _ _) _ _ = _
    rw [rd_record hx σ g i]
    simp only [added, hn]
  | executed h c x b ga =>
    cases ga with
    | none => rfl
    | some ga =>
      have hx := hx _ (List.mem_singleton.2 rfl)
      show rd (put _ _ _ _) _ _ = _
      rw [rd_put _ _ (k := .executed) trivial _ _ g i, if_neg (fun e => h3 e.2), rd_record hx σ g i]
      simp only [added, hn]
  | removed h c r =>
    show rd (put (put _ _ _ _) _ _ _) _ _ = _
    rw [rd_put _ _ (k := .archived) trivial _ _ g i, if_neg (fun e => h1 e.2),
      rd_put _ _ (k := .cron c.id) trivial _ _ g i, if_neg (fun e => hk _ e.2)]
    show rd (if _ then _ else _) _ _ = _
    cases r
    · rfl
    · rw [if_pos rfl, rd_put _ _ (k := .refunded) trivial _ _ g i, if_neg (fun e => h2 e.2)]; rfl
  | counted n =>
    show (if σ then KV.get (KV.set _ _ _) _ else _) = (if σ then _ else _)
    cases σ
    · rfl
    · rw [if_pos rfl, if_pos rfl, KV.get_set, if_neg]
      intro e
      exact h4 (text_inj g (k' := .total) trivial i e)

theorem run_next (ops : List Op) : (run ops).next = (log ops).length + 1 := by
  induction ops using snoc_ind with
  | h0 => rfl
  | hs l op ih =>
    rw [run_snoc, log_snoc, List.length_append, ← Nat.add_right_comm, ← ih]
    cases op with
    | cancelled => rfl
    | executed h c x b g =>
      cases g with
      | none => rfl
      | some g =>
        show (put _ _ _ _).next = _
        rw [put_next]
        rfl
    | removed h c r =>
      show (put (put _ _ _ _) _ _ _).next = _
      rw [put_next, put_next]
      show (if _ then _ else _ : State).next = _
      split
      · rw [put_next]; rfl
      · rfl
    | counted => rfl

theorem added_cases (n : Nat) (op : Op) : added n op = [] ∨ ∃ t : Tx, added n op = [t] ∧ t.number = n := by
  cases op with
  | executed h c x b g =>
    cases g with
    | none => exact .inl rfl
    | some g => exact .inr ⟨_, rfl, rfl⟩
  | cancelled => exact .inr ⟨_, rfl, rfl⟩
  | _ => exact .inl rfl

theorem rd_tx {ops : List Op} (hh : HexHashes ops) (σ : Bool) (n : Nat) (v : Val) :
    rd (run ops) σ (.tx n) = some v ↔ ∃ t ∈ log ops, t.number = n ∧ late t.block = σ ∧ v = .tx t := by
  induction ops using snoc_ind with
  | h0 => cases σ <;> simp [rd, run, init, KV.get_nil, log, recordings]
  | hs l op ih =>
    have ih := ih (hex_of_snoc hh)
    rw [run_snoc, step_rd hh (run_next l) σ (k := .tx n) trivial trivial (by simp) (by simp) (by simp) (by simp) (by simp),
      log_snoc]
    rcases added_cases ((log l).length + 1) op with e | ⟨t, e, ht⟩
    · rw [e, List.append_nil]; exact ih
    · rw [e]
      simp only [reduceCtorEq, and_false, if_false, Key.tx.injEq]
      by_cases hc : late t.block = σ ∧ n = t.number
      · rw [if_pos hc]
        constructor
        · intro hv
          exact ⟨t, by simp, hc.2.symm, hc.1, by simpa using hv.symm⟩
        · rintro ⟨u, hu, hun, hus, rfl⟩
          rcases List.mem_append.1 hu with hu | hu
          · have := log_number hu; omega
          · rw [List.mem_singleton.1 hu]
      · rw [if_neg hc, ih]
        constructor
        · rintro ⟨u, hu, hr⟩; exact ⟨u, List.mem_append_left _ hu, hr⟩
        · rintro ⟨u, hu, hun, hus, rfl⟩
          rcases List.mem_append.1 hu with hu | hu
          · exact ⟨u, hu, hun, hus, rfl⟩
          · rw [List.mem_singleton.1 hu] at hun hus
            exact absurd ⟨hus, hun.symm⟩ hc

theorem rd_hash {ops : List Op} (hh : HexHashes ops) (ho : OwnHashes ops) (σ : Bool) {x : Str} (hx : Good (.hash x))
    (v : Val) :
    rd (run ops) σ (.hash x) = some v ↔ ∃ t ∈ log ops, t.hash = x ∧ late t.block = σ ∧ v = .num t.number := by
  induction ops using snoc_ind with
  | h0 => cases σ <;> simp [rd, run, init, KV.get_nil, log, recordings]
  | hs l op ih =>
    have ih := ih (hex_of_snoc hh) (own_of_snoc ho)
    rw [run_snoc, step_rd hh (run_next l) σ hx trivial (by simp) (by simp) (by simp) (by simp) (by simp), log_snoc]
    unfold OwnHashes at ho
    rw [log_snoc] at ho
    rcases added_cases ((log l).length + 1) op with e | ⟨t, e, ht⟩
    · rw [e, List.append_nil]; exact ih
    · rw [e] at ho ⊢
      rw [List.map_append, List.nodup_append] at ho
      simp only [reduceCtorEq, and_false, if_false, Key.hash.injEq]
      by_cases hc : late t.block = σ ∧ x = t.hash
      · rw [if_pos hc]
        constructor
        · intro hv
          exact ⟨t, by simp, hc.2.symm, hc.1, by simpa using hv.symm⟩
        · rintro ⟨u, hu, hun, hus, rfl⟩
          rcases List.mem_append.1 hu with hu | hu
          · exact absurd (hun.trans hc.2) (ho.2.2 _ (List.mem_map_of_mem hu) _ (by simp))
          · rw [List.mem_singleton.1 hu]
      · rw [if_neg hc, ih]
        constructor
        · rintro ⟨u, hu, hr⟩; exact ⟨u, List.mem_append_left _ hu, hr⟩
        · rintro ⟨u, hu, hun, hus, rfl⟩
          rcases List.mem_append.1 hu with hu | hu
          · exact ⟨u, hu, hun, hus, rfl⟩
          · rw [List.mem_singleton.1 hu] at hun hus
            exact absurd ⟨hus, hun.symm⟩ hc

theorem rd_block {ops : List Op} (hh : HexHashes ops) (σ : Bool) (b : Nat) :
    rd (run ops) σ (.block b) =
      if late b = σ ∧ (log ops).filter (fun t => decide (t.block = b)) ≠ [] then
        some (.hashes (((log ops).filter (fun t => decide (t.block = b))).map (·.hash)))
      else none := by
  induction ops using snoc_ind with
  | h0 => cases σ <;> simp [rd, run, init, KV.get_nil, log, recordings]
  | hs l op ih =>
    have ih := ih (hex_of_snoc hh)
    rw [run_snoc, step_rd hh (run_next l) σ (k := .block b) trivial trivial (by simp) (by simp) (by simp) (by simp)
      (by simp), log_snoc]
    rcases added_cases ((log l).length + 1) op with e | ⟨t, e, ht⟩
    · rw [e, List.append_nil]; exact ih
    · rw [e]
      simp only [reduceCtorEq, and_false, if_false, Key.block.injEq]
      rw [List.filter_append]
      by_cases hc : late t.block = σ ∧ b = t.block
      · obtain ⟨hs, rfl⟩ := hc
        rw [if_pos ⟨hs, rfl⟩, hashesOf_eq, hs, ih]
        simp only [hs, true_and]
        rw [show [t].filter (fun u => decide (u.block = t.block)) = [t] by simp]
        generalize (log l).filter (fun u => decide (u.block = t.block)) = L
        by_cases hl : L = []
        · subst hl; rfl
        · simp [hl]
      · rw [if_neg hc, ih]
        by_cases hb : t.block = b
        · rw [if_neg (fun h => hc ⟨hb ▸ h.1, hb.symm⟩), if_neg (fun h => hc ⟨hb ▸ h.1, hb.symm⟩)]
        · simp [hb]

/-- Reading the index after one step. -/
theorem step_rd_index {ops : List Op} {op : Op} (hh : HexHashes (ops ++ [op])) (c n : Nat) :
    rd (step (run ops) op) true (.index c n) = match added ((log ops).length + 1) op with
      | [t] => if late t.block = true ∧ dec c ++ dec n = dec t.cron ++ dec t.number then some .nothing
        else rd (run ops) true (.index c n)
      | _ => rd (run ops) true (.index c n) := by
  have hx : ∀ t ∈ added ((log ops).length + 1) op, Good (.hash t.hash) := fun t ht =>
    hh t (by rw [log_snoc]; exact List.mem_append_right _ ht)
  have hn := run_next ops
  cases op with
  | cancelled h d x b =>
    have hx := hx _ (List.mem_singleton.2 rfl)
    show rd (record _ _ _ _ _) _ _ = _
    rw [rd_record_index hx]
    simp only [added, hn]
  | executed h d x b ga =>
    cases ga with
    | none => rfl
    | some ga =>
      have hx := hx _ (List.mem_singleton.2 rfl)
      show rd (put _ _ _ _) _ _ = _
      rw [rd_put_other _ _ (k := .executed) trivial trivial, rd_record_index hx]
      simp only [added, hn]
  | removed h d r =>
    show rd (put (put _ _ _ _) _ _ _) _ _ = _
    rw [rd_put_other _ _ (k := .archived) trivial trivial, rd_put_other _ _ (k := .cron d.id) trivial trivial]
    show rd (if _ then _ else _) _ _ = _
    cases r
    · rfl
    · rw [if_pos rfl, rd_put_other _ _ (k := .refunded) trivial trivial]; rfl
  | counted m =>
    show KV.get (KV.set _ _ _) _ = KV.get _ _
    rw [KV.get_set, if_neg]
    intro e
    exact absurd (text_inj (k := .total) (k' := .index c n) trivial trivial trivial e.symm) (by simp)

theorem rd_index {ops : List Op} (hh : HexHashes ops) (c n : Nat) (v : Val) :
    rd (run ops) true (.index c n) = some v ↔
      v = .nothing ∧ ∃ t ∈ log ops, late t.block = true ∧ dec t.cron ++ dec t.number = dec c ++ dec n := by
  induction ops using snoc_ind with
  | h0 => simp [rd, run, init, KV.get_nil, log, recordings]
  | hs l op ih =>
    have ih := ih (hex_of_snoc hh)
    rw [run_snoc, step_rd_index hh, log_snoc]
    rcases added_cases ((log l).length + 1) op with e | ⟨t, e, ht⟩
    · rw [e, List.append_nil]; exact ih
    · rw [e]
      dsimp only
      by_cases hc : late t.block = true ∧ dec c ++ dec n = dec t.cron ++ dec t.number
      · rw [if_pos hc]
        constructor
        · intro hv
          exact ⟨by simpa using hv.symm, t, by simp, hc.1, hc.2.symm⟩
        · rintro ⟨rfl, _⟩; rfl
      · rw [if_neg hc, ih]
        constructor
        · rintro ⟨hv, u, hu, hr⟩; exact ⟨hv, u, List.mem_append_left _ hu, hr⟩
        · rintro ⟨hv, u, hu, hus, hun⟩
          rcases List.mem_append.1 hu with hu | hu
          · exact ⟨hv, u, hu, hus, hun⟩
          · rw [List.mem_singleton.1 hu] at hun hus
            exact absurd ⟨hus, hun.symm⟩ hc

/-- A recording leaves alone what is not about transactions. -/
theorem record_rd_other {s : State} {h c : Nat} {x : Str} {b : Nat} (hx : Good (.hash x)) (σ : Bool) {k : Key} (g : Good k)
    (i : NotIndex k) (h1 : ∀ b, k ≠ .block b) (h2 : ∀ x, k ≠ .hash x) (h3 : ∀ n, k ≠ .tx n) :
    rd (record s h c x b) σ k = rd s σ k := by
  rw [rd_record hx σ g i, if_neg (fun e => h1 _ e.2), if_neg (fun e => h2 _ e.2), if_neg (fun e => h3 _ e.2)]

theorem good_added {ops : List Op} {op : Op} (hh : HexHashes (ops ++ [op])) :
    ∀ t ∈ added ((log ops).length + 1) op, Good (.hash t.hash) := fun t ht =>
  hh t (by rw [log_snoc]; exact List.mem_append_right _ ht)

theorem counted_rd (s : State) (m : Nat) (σ : Bool) {k : Key} (g : Good k) (i : NotIndex k) (h : k ≠ .total) :
    rd (step s (.counted m)) σ k = rd s σ k := by
  show (if σ then KV.get (KV.set _ _ _) _ else _) = (if σ then _ else _)
  cases σ
  · rfl
  · rw [if_pos rfl, if_pos rfl, KV.get_set, if_neg]
    intro e
    exact h (text_inj g (k' := .total) trivial i e)

theorem rd_cron {ops : List Op} (hh : HexHashes ops) (h id : Nat) :
    rd (run ops) (late h) (.cron id) = (ended ops h id).getLast?.map (fun c => .cron { c with archived := true }) := by
  induction ops using snoc_ind with
  | h0 => cases hl : late h <;> simp [rd, run, init, KV.get_nil, ended]
  | hs l op ih =>
    have ih := ih (hex_of_snoc hh)
    have hg := good_added hh
    have he : ended (l ++ [op]) h id = ended l h id ++ ended [op] h id := by unfold ended; rw [List.filterMap_append]
    rw [run_snoc, he]
    cases op with
    | cancelled a c x b =>
      show rd (record _ _ _ _ _) _ _ = _
      rw [record_rd_other (hg _ (List.mem_singleton.2 rfl)) _ (k := .cron id) trivial trivial (by simp) (by simp) (by simp), ih,
        show ended [.cancelled a c x b] h id = [] from rfl, List.append_nil]
    | executed a c x b ga =>
      rw [show ended [.executed a c x b ga] h id = [] from rfl, List.append_nil, ← ih]
      cases ga with
      | none => rfl
      | some ga =>
        show rd (put _ _ _ _) _ _ = _
        rw [rd_put _ _ (k := .executed) trivial _ _ (k' := .cron id) trivial trivial, if_neg (by simp),
          record_rd_other (hg _ (List.mem_singleton.2 rfl)) _ (k := .cron id) trivial trivial (by simp) (by simp) (by simp)]
    | removed a c r =>
      show rd (put (put _ _ _ _) _ _ _) _ _ = _
      rw [rd_put _ _ (k := .archived) trivial _ _ (k' := .cron id) trivial trivial, if_neg (by simp),
        rd_put _ _ (k := .cron c.id) trivial _ _ (k' := .cron id) trivial trivial]
      by_cases hc : SameSide h a ∧ c.id = id
      · rw [if_pos ⟨(sameSide_iff _ _).1 hc.1, by rw [hc.2]⟩,
          show ended [.removed a c r] h id = [c] by simp [ended, hc]]
        simp
      · rw [if_neg (fun e => hc ⟨(sameSide_iff _ _).2 e.1, by injection e.2 with e; exact e.symm⟩),
          show ended [.removed a c r] h id = [] by simp [ended]; exact fun a b => hc ⟨a, b⟩, List.append_nil, ← ih]
        show rd (if _ then _ else _) _ _ = _
        cases r
        · rfl
        · rw [if_pos rfl, rd_put _ _ (k := .refunded) trivial _ _ (k' := .cron id) trivial trivial, if_neg (by simp)]
    | counted m =>
      rw [counted_rd _ _ _ (k := .cron id) trivial trivial (by simp), ih,
        show ended [.counted m] h id = [] from rfl, List.append_nil]

/-! ## Counters -/

/-- A counter on one side of the switch. -/
def ctr (s : State) (σ : Bool) (k : Key) : Nat := match rd s σ k with | some (.num n) => n | _ => 0

theorem counter_eq (s : State) (h : Nat) (k : Key) : counter s h k = ctr s (late h) k := rfl

theorem ctr_congr {s s' : State} {σ : Bool} {k : Key} (h : rd s σ k = rd s' σ k) : ctr s σ k = ctr s' σ k := by
  unfold ctr; rw [h]

theorem ctr_put_ne (s : State) (h : Nat) {k : Key} (g : Good k) (v : Val) (σ : Bool) {k' : Key} (g' : Good k')
    (i : NotIndex k') (hk : k' ≠ k) : ctr (put s h k v) σ k' = ctr s σ k' :=
  ctr_congr (by rw [rd_put _ _ g _ _ g' i, if_neg (fun e => hk e.2)])

theorem ctr_put_same (s : State) (h : Nat) {k : Key} (g : Good k) (n : Nat) (σ : Bool) (i : NotIndex k) :
    ctr (put s h k (.num n)) σ k = if late h = σ then n else ctr s σ k := by
  unfold ctr
  rw [rd_put _ _ g _ _ g i]
  by_cases e : late h = σ
  · rw [if_pos ⟨e, rfl⟩, if_pos e]
  · rw [if_neg (fun c => e c.1), if_neg e]

theorem ctr_record {s : State} {h c : Nat} {x : Str} {b : Nat} (hx : Good (.hash x)) (σ : Bool) {k : Key} (g : Good k)
    (i : NotIndex k) (h1 : ∀ b, k ≠ .block b) (h2 : ∀ x, k ≠ .hash x) (h3 : ∀ n, k ≠ .tx n) :
    ctr (record s h c x b) σ k = ctr s σ k := ctr_congr (record_rd_other hx σ g i h1 h2 h3)

theorem ctr_executed {ops : List Op} (hh : HexHashes ops) (h : Nat) :
    ctr (run ops) (late h) .executed = executions ops h := by
  induction ops using snoc_ind with
  | h0 => cases hl : late h <;> simp [ctr, rd, run, init, KV.get_nil, executions]
  | hs l op ih =>
    have ih := ih (hex_of_snoc hh)
    have hg := good_added hh
    have he : executions (l ++ [op]) h = executions l h + executions [op] h := by
      unfold executions; rw [List.countP_append]
    rw [run_snoc, he, ← ih]
    cases op with
    | cancelled a c x b =>
      exact ctr_record (hg _ (List.mem_singleton.2 rfl)) _ trivial trivial (by simp) (by simp) (by simp)
    | executed a c x b ga =>
      cases ga with
      | none => rfl
      | some ga =>
        show ctr (put _ _ _ _) _ _ = _
        rw [ctr_put_same _ _ (k := .executed) trivial _ _ trivial, counter_eq,
          ctr_record (hg _ (List.mem_singleton.2 rfl)) _ (k := .executed) trivial trivial (by simp) (by simp) (by simp),
          ctr_record (hg _ (List.mem_singleton.2 rfl)) _ (k := .executed) trivial trivial (by simp) (by simp) (by simp)]
        by_cases e : late a = late h
        · rw [if_pos e, e, show executions [.executed a c x b (some ga)] h = 1 by
            simp [executions, (sameSide_iff h a).2 e]]
        · rw [if_neg e, show executions [.executed a c x b (some ga)] h = 0 by
            simp [executions, mt (sameSide_iff h a).1 e]]
          rfl
    | removed a c r =>
      show ctr (put (put _ _ _ _) _ _ _) _ _ = _
      rw [ctr_put_ne _ _ (k := .archived) trivial _ _ (k' := .executed) trivial trivial (by simp),
        ctr_put_ne _ _ (k := .cron c.id) trivial _ _ (k' := .executed) trivial trivial (by simp)]
      show ctr (if _ then _ else _) _ _ = _
      cases r
      · rfl
      · rw [if_pos rfl, ctr_put_ne _ _ (k := .refunded) trivial _ _ (k' := .executed) trivial trivial (by simp)]
        rfl
    | counted m => exact ctr_congr (counted_rd _ _ _ trivial trivial (by simp))

theorem ctr_refunded {ops : List Op} (hh : HexHashes ops) (h : Nat) :
    ctr (run ops) (late h) .refunded = refunds ops h := by
  induction ops using snoc_ind with
  | h0 => cases hl : late h <;> simp [ctr, rd, run, init, KV.get_nil, refunds]
  | hs l op ih =>
    have ih := ih (hex_of_snoc hh)
    have hg := good_added hh
    have he : refunds (l ++ [op]) h = refunds l h + refunds [op] h := by
      unfold refunds; rw [List.countP_append]
    rw [run_snoc, he, ← ih]
    cases op with
    | cancelled a c x b =>
      exact ctr_record (hg _ (List.mem_singleton.2 rfl)) _ trivial trivial (by simp) (by simp) (by simp)
    | executed a c x b ga =>
      cases ga with
      | none => rfl
      | some ga =>
        show ctr (put _ _ _ _) _ _ = _
        rw [ctr_put_ne _ _ (k := .executed) trivial _ _ (k' := .refunded) trivial trivial (by simp),
          ctr_record (hg _ (List.mem_singleton.2 rfl)) _ (k := .refunded) trivial trivial (by simp) (by simp) (by simp)]
        rfl
    | removed a c r =>
      show ctr (put (put _ _ _ _) _ _ _) _ _ = _
      rw [ctr_put_ne _ _ (k := .archived) trivial _ _ (k' := .refunded) trivial trivial (by simp),
        ctr_put_ne _ _ (k := .cron c.id) trivial _ _ (k' := .refunded) trivial trivial (by simp)]
      show ctr (if _ then _ else _) _ _ = _
      cases r
      · rw [show refunds [.removed a c false] h = 0 by simp [refunds]]; rfl
      · rw [if_pos rfl, ctr_put_same _ _ (k := .refunded) trivial _ _ trivial, counter_eq]
        by_cases e : late a = late h
        · rw [if_pos e, e, show refunds [.removed a c true] h = 1 by
            simp [refunds, (sameSide_iff h a).2 e]]
        · rw [if_neg e, show refunds [.removed a c true] h = 0 by
            simp [refunds, mt (sameSide_iff h a).1 e]]
          rfl
    | counted m => exact ctr_congr (counted_rd _ _ _ trivial trivial (by simp))

theorem wrap_small {n : Nat} (h : n < 2147483647) :
    ofInt32 (toInt32 ((toInt32 n + 1) % 4294967296).toNat) = n + 1 := by
  have h1 : toInt32 n = n := by unfold toInt32; rw [if_pos (by omega)]; omega
  have h2 : ((toInt32 n + 1) % 4294967296).toNat = n + 1 := by rw [h1]; omega
  have h3 : toInt32 (n + 1) = ((n + 1 : Nat) : Int) := by unfold toInt32; rw [if_pos (by omega)]; omega
  rw [h2, h3]
  unfold ofInt32
  omega

theorem read_small {n : Nat} (h : n < 2147483648) : ofInt32 (toInt32 n) = n := by
  have h1 : toInt32 n = n := by unfold toInt32; rw [if_pos (by omega)]; omega
  rw [h1]
  unfold ofInt32
  omega

theorem ctr_archived {ops : List Op} (hh : HexHashes ops) (h : Nat) (hs : endings ops h < 2147483648) :
    ctr (run ops) (late h) .archived = endings ops h := by
  induction ops using snoc_ind with
  | h0 => cases hl : late h <;> simp [ctr, rd, run, init, KV.get_nil, endings]
  | hs l op ih =>
    have he : endings (l ++ [op]) h = endings l h + endings [op] h := by
      unfold endings; rw [List.countP_append]
    rw [he] at hs
    have ih := ih (hex_of_snoc hh) (by omega)
    have hg := good_added hh
    rw [run_snoc, he]
    cases op with
    | cancelled a c x b =>
      rw [← ih]
      exact ctr_record (hg _ (List.mem_singleton.2 rfl)) _ trivial trivial (by simp) (by simp) (by simp)
    | executed a c x b ga =>
      rw [← ih]
      cases ga with
      | none => rfl
      | some ga =>
        show ctr (put _ _ _ _) _ _ = _
        rw [ctr_put_ne _ _ (k := .executed) trivial _ _ (k' := .archived) trivial trivial (by simp),
          ctr_record (hg _ (List.mem_singleton.2 rfl)) _ (k := .archived) trivial trivial (by simp) (by simp) (by simp)]
        rfl
    | removed a c r =>
      show ctr (put (put _ _ _ _) _ _ _) _ _ = _
      have hu : ∀ σ, ctr (put (if r = true then put (run l) a .refunded (.num (counter (run l) a .refunded + 1))
          else run l) a (.cron c.id) (.cron { c with archived := true })) σ .archived = ctr (run l) σ .archived := by
        intro σ
        rw [ctr_put_ne _ _ (k := .cron c.id) trivial _ _ (k' := .archived) trivial trivial (by simp)]
        cases r
        · rfl
        · rw [if_pos rfl, ctr_put_ne _ _ (k := .refunded) trivial _ _ (k' := .archived) trivial trivial (by simp)]
      rw [ctr_put_same _ _ (k := .archived) trivial _ _ trivial, counter_eq, hu, hu]
      by_cases e : late a = late h
      · have h1 : endings [.removed a c r] h = 1 := by simp [endings, (sameSide_iff h a).2 e]
        rw [if_pos e, e, ih, h1]
        exact wrap_small (by omega)
      · rw [if_neg e, show endings [.removed a c r] h = 0 by
          simp [endings, mt (sameSide_iff h a).1 e], ih]
        rfl
    | counted m =>
      rw [← ih]
      exact ctr_congr (counted_rd _ _ _ trivial trivial (by simp))

theorem rd_total {ops : List Op} (hh : HexHashes ops) :
    KV.get (run ops).arch (text .total) = (lastCount ops).map .num := by
  show rd (run ops) true .total = _
  induction ops using snoc_ind with
  | h0 => rfl
  | hs l op ih =>
    have ih := ih (hex_of_snoc hh)
    have hg := good_added hh
    rw [run_snoc]
    have hl : ∀ o : Op, (∀ n, o ≠ .counted n) → lastCount (l ++ [o]) = lastCount l := by
      intro o ho
      unfold lastCount
      rw [List.filterMap_append]
      cases o with
      | counted n => exact absurd rfl (ho n)
      | _ => simp
    cases op with
    | cancelled a c x b =>
      rw [hl _ (by simp), ← ih]
      exact record_rd_other (hg _ (List.mem_singleton.2 rfl)) _ trivial trivial (by simp) (by simp) (by simp)
    | executed a c x b ga =>
      rw [hl _ (by simp), ← ih]
      cases ga with
      | none => rfl
      | some ga =>
        show rd (put _ _ _ _) _ _ = _
        rw [rd_put _ _ (k := .executed) trivial _ _ (k' := .total) trivial trivial, if_neg (by simp),
          record_rd_other (hg _ (List.mem_singleton.2 rfl)) _ (k := .total) trivial trivial (by simp) (by simp) (by simp)]
    | removed a c r =>
      rw [hl _ (by simp), ← ih]
      show rd (put (put _ _ _ _) _ _ _) _ _ = _
      rw [rd_put _ _ (k := .archived) trivial _ _ (k' := .total) trivial trivial, if_neg (by simp),
        rd_put _ _ (k := .cron c.id) trivial _ _ (k' := .total) trivial trivial, if_neg (by simp)]
      show rd (if _ then _ else _) _ _ = _
      cases r
      · rfl
      · rw [if_pos rfl, rd_put _ _ (k := .refunded) trivial _ _ (k' := .total) trivial trivial, if_neg (by simp)]
    | counted m =>
      unfold rd step
      rw [if_pos rfl]
      dsimp only
      rw [KV.get_set, if_pos rfl]
      simp [lastCount]

/-! ## The archive store as a whole -/

theorem put_keys {s : State} (hk : ∀ e ∈ s.arch, ∃ k, Good k ∧ text k = e.1) (h : Nat) {k : Key} (g : Good k) (v : Val) :
    ∀ e ∈ (put s h k v).arch, ∃ k, Good k ∧ text k = e.1 := by
  unfold put
  split
  · intro e he
    rcases KV.mem_set.1 he with rfl | he
    · exact ⟨k, g, rfl⟩
    · exact hk e he.1
  · exact hk

theorem put_distinct {s : State} (hd : KV.Distinct s.arch) (h : Nat) (k : Key) (v : Val) :
    KV.Distinct (put s h k v).arch := by
  unfold put
  split
  · exact KV.distinct_set hd _ _
  · exact hd

theorem run_keys {ops : List Op} (hh : HexHashes ops) : ∀ e ∈ (run ops).arch, ∃ k, Good k ∧ text k = e.1 := by
  induction ops using snoc_ind with
  | h0 => intro e he; cases he
  | hs l op ih =>
    have ih := ih (hex_of_snoc hh)
    have hg := good_added hh
    rw [run_snoc]
    cases op with
    | cancelled a c x b =>
      have hx := hg _ (List.mem_singleton.2 rfl)
      exact put_keys (put_keys (put_keys (put_keys ih _ (k := .tx _) trivial _) _ (k := .index _ _) trivial _) _ hx _) _
        (k := .block _) trivial _
    | executed a c x b ga =>
      cases ga with
      | none => exact ih
      | some ga =>
        have hx := hg _ (List.mem_singleton.2 rfl)
        exact put_keys (s := record _ _ _ _ _) (put_keys (put_keys (put_keys (put_keys ih _ (k := .tx _) trivial _) _
          (k := .index _ _) trivial _) _ hx _) _ (k := .block _) trivial _) _ (k := .executed) trivial _
    | removed a c r =>
      refine put_keys (put_keys ?_ _ (k := .cron _) trivial _) _ (k := .archived) trivial _
      cases r
      · exact ih
      · exact put_keys ih _ (k := .refunded) trivial _
    | counted m =>
      intro e he
      rcases KV.mem_set.1 he with rfl | he
      · exact ⟨.total, trivial, rfl⟩
      · exact ih e he.1

theorem run_distinct (ops : List Op) : KV.Distinct (run ops).arch := by
  induction ops using snoc_ind with
  | h0 => exact .nil
  | hs l op ih =>
    rw [run_snoc]
    cases op with
    | cancelled a c x b => exact put_distinct (put_distinct (put_distinct (put_distinct ih _ _ _) _ _ _) _ _ _) _ _ _
    | executed a c x b ga =>
      cases ga with
      | none => exact ih
      | some ga =>
        exact put_distinct (s := record _ _ _ _ _)
          (put_distinct (put_distinct (put_distinct (put_distinct ih _ _ _) _ _ _) _ _ _) _ _ _) _ _ _
    | removed a c r =>
      refine put_distinct (put_distinct ?_ _ _ _) _ _ _
      show KV.Distinct (if _ then _ else _ : State).arch
      cases r
      · exact ih
      · exact put_distinct ih _ _ _
    | counted m => exact KV.distinct_set ih _ _

/-! ## The order of keys -/

theorem le_refl (a : Str) : le a a = true := by
  induction a with
  | nil => rfl
  | cons x a ih =>
    unfold le
    rw [if_neg (by simp), if_neg (by simp)]
    exact ih

theorem le_total (a b : Str) : (le a b || le b a) = true := by
  induction a generalizing b with
  | nil => rfl
  | cons x a ih =>
    cases b with
    | nil => simp [le]
    | cons y b =>
      unfold le
      by_cases h1 : x < y
      · simp [h1]
      · by_cases h2 : y < x
        · simp [h2]
        · simp only [h1, h2, if_false]; exact ih b

theorem le_trans (a b c : Str) (h1 : le a b = true) (h2 : le b c = true) : le a c = true := by
  induction a generalizing b c with
  | nil => rfl
  | cons x a ih =>
    cases b with
    | nil => cases h1
    | cons y b =>
      cases c with
      | nil => cases h2
      | cons z c =>
        unfold le at h1 h2 ⊢
        simp only [UInt8.lt_iff_toNat_lt] at *
        by_cases p1 : x.toNat < y.toNat
        · by_cases p2 : y.toNat < z.toNat
          · rw [if_pos (by omega)]
          · rw [if_neg p2] at h2
            by_cases p3 : z.toNat < y.toNat
            · rw [if_pos p3] at h2; cases h2
            · rw [if_pos (by omega)]
        · rw [if_neg p1] at h1
          by_cases p4 : y.toNat < x.toNat
          · rw [if_pos p4] at h1; cases h1
          · rw [if_neg p4] at h1
            by_cases p2 : y.toNat < z.toNat
            · rw [if_pos (by omega)]
            · rw [if_neg p2] at h2
              by_cases p3 : z.toNat < y.toNat
              · rw [if_pos p3] at h2; cases h2
              · rw [if_neg p3] at h2
                rw [if_neg (by omega), if_neg (by omega)]
                exact ih b c h1 h2

theorem le_antisymm (a b : Str) (h1 : le a b = true) (h2 : le b a = true) : a = b := by
  induction a generalizing b with
  | nil =>
    cases b with
    | nil => rfl
    | cons => cases h2
  | cons x a ih =>
    cases b with
    | nil => cases h1
    | cons y b =>
      unfold le at h1 h2
      simp only [UInt8.lt_iff_toNat_lt] at *
      by_cases p1 : x.toNat < y.toNat
      · rw [if_neg (by omega), if_pos p1] at h2; cases h2
      · rw [if_neg p1] at h1
        by_cases p2 : y.toNat < x.toNat
        · rw [if_pos p2] at h1; cases h1
        · rw [if_neg p2] at h1
          rw [if_neg p2, if_neg p1] at h2
          rw [ih b h1 h2, show x = y from UInt8.toNat_inj.1 (by omega)]

theorem le_append_left (p a b : Str) : le (p ++ a) (p ++ b) = le a b := by
  induction p with
  | nil => rfl
  | cons x p ih =>
    rw [← ih, List.cons_append, List.cons_append]
    conv => lhs; unfold le
    rw [if_neg (by simp), if_neg (by simp)]

theorem le_append_right {a b : Str} (hl : a.length = b.length) (h : le a b = true) (hn : a ≠ b) (x y : Str) :
    le (a ++ x) (b ++ y) = true := by
  induction a generalizing b with
  | nil =>
    cases b with
    | nil => exact absurd rfl hn
    | cons => cases hl
  | cons u a ih =>
    cases b with
    | nil => cases hl
    | cons v b =>
      show le (u :: (a ++ x)) (v :: (b ++ y)) = true
      unfold le at h ⊢
      by_cases p1 : u < v
      · rw [if_pos p1]
      · rw [if_neg p1] at h ⊢
        by_cases p2 : v < u
        · rw [if_pos p2] at h; cases h
        · rw [if_neg p2] at h ⊢
          have : u = v := by
            rw [UInt8.lt_iff_toNat_lt] at p1 p2
            exact UInt8.toNat_inj.1 (by omega)
          exact ih (by simpa using hl) h (fun e => hn (by rw [this, e]))

/-! ## Decimal numbers -/

theorem decAux_length (k : Nat) : ∀ f n, n < f → 10 ^ k ≤ n → n < 10 ^ (k + 1) →
    (Hyperion.decAux f n).length = k + 1 := by
  induction k with
  | zero =>
    intro f n hf h1 h2
    cases f with
    | zero => omega
    | succ f =>
      unfold Hyperion.decAux
      rw [if_pos (by omega)]
      rfl
  | succ k ih =>
    intro f n hf h1 h2
    cases f with
    | zero => omega
    | succ f =>
      have e1 : 10 ^ (k + 1) = 10 ^ k * 10 := Nat.pow_succ _ _
      have e2 : 10 ^ (k + 1 + 1) = 10 ^ (k + 1) * 10 := Nat.pow_succ _ _
      have e3 : 0 < 10 ^ k := Nat.pow_pos (by omega)
      unfold Hyperion.decAux
      rw [if_neg (by omega), List.length_append, ih f (n / 10) (by omega) (by omega) (by omega)]
      rfl

theorem dec_length {k n : Nat} (h1 : 10 ^ k ≤ n) (h2 : n < 10 ^ (k + 1)) : (dec n).length = k + 1 :=
  decAux_length k _ _ (by omega) h1 h2

theorem decAux_le (k : Nat) : ∀ f g m n, m < f → n < g → 10 ^ k ≤ m → m < n → n < 10 ^ (k + 1) →
    le (Hyperion.decAux f m) (Hyperion.decAux g n) = true := by
  induction k with
  | zero =>
    intro f g m n hf hg h1 h2 h3
    cases f with
    | zero => omega
    | succ f =>
      cases g with
      | zero => omega
      | succ g =>
        unfold Hyperion.decAux
        rw [if_pos (by omega), if_pos (by omega)]
        unfold le
        rw [if_pos]
        rw [UInt8.lt_iff_toNat_lt, Hyperion.digit_toNat (by omega), Hyperion.digit_toNat (by omega)]
        omega
  | succ k ih =>
    intro f g m n hf hg h1 h2 h3
    cases f with
    | zero => omega
    | succ f =>
      cases g with
      | zero => omega
      | succ g =>
        have e1 : 10 ^ (k + 1) = 10 ^ k * 10 := Nat.pow_succ _ _
        have e2 : 10 ^ (k + 1 + 1) = 10 ^ (k + 1) * 10 := Nat.pow_succ _ _
        have e3 : 0 < 10 ^ k := Nat.pow_pos (by omega)
        have lm := decAux_length k f (m / 10) (by omega) (by omega) (by omega)
        have ln := decAux_length k g (n / 10) (by omega) (by omega) (by omega)
        unfold Hyperion.decAux
        rw [if_neg (by omega), if_neg (by omega)]
        by_cases h : m / 10 = n / 10
        · have hq : Hyperion.decAux f (m / 10) = Hyperion.decAux g (n / 10) := by
            have hm := Hyperion.undec_decAux f (m / 10) (by omega)
            rw [h] at lm hm ⊢
            clear ih
            have : ∀ f g q, q < f → q < g → Hyperion.decAux f q = Hyperion.decAux g q := by
              intro f
              induction f with
              | zero => intro g q h; omega
              | succ f ihf =>
                intro g q h h'
                cases g with
                | zero => omega
                | succ g =>
                  unfold Hyperion.decAux
                  split
                  · rfl
                  · rw [ihf g (q / 10) (by omega) (by omega)]
            exact this f g _ (by omega) (by omega)
          rw [hq, le_append_left]
          unfold le
          rw [if_pos]
          rw [UInt8.lt_iff_toNat_lt, Hyperion.digit_toNat (by omega), Hyperion.digit_toNat (by omega)]
          omega
        · have hle := ih f g (m / 10) (n / 10) (by omega) (by omega) (by omega) (by omega) (by omega)
          refine le_append_right (by rw [lm, ln]) hle ?_ _ _
          intro e
          apply h
          rw [← Hyperion.undec_decAux f (m / 10) (by omega), e, Hyperion.undec_decAux g (n / 10) (by omega)]

theorem dec_le {k m n : Nat} (h1 : 10 ^ k ≤ m) (h2 : m < n) (h3 : n < 10 ^ (k + 1)) : le (dec m) (dec n) = true :=
  decAux_le k _ _ m n (by omega) (by omega) h1 h2 h3

/-! ## Pages -/

theorem mem_under {s : State} {pre r : Str} {v : Val} : (r, v) ∈ under s pre ↔ (pre ++ r, v) ∈ s.arch := by
  unfold under
  rw [(StableSort.sortBy_perm _ _).mem_iff, List.mem_filterMap]
  constructor
  · rintro ⟨⟨k, w⟩, he, h⟩
    dsimp only at h
    split at h
    · rename_i hp
      obtain ⟨q, rfl⟩ := List.isPrefixOf_iff_prefix.1 hp
      rw [List.drop_left] at h
      injection h with h
      injection h with h1 h2
      rw [← h1, ← h2]
      exact he
    · cases h
  · intro h
    refine ⟨_, h, ?_⟩
    dsimp only
    rw [if_pos (List.isPrefixOf_iff_prefix.2 ⟨r, rfl⟩), List.drop_left]

theorem under_sorted (s : State) (pre : Str) : (under s pre).Pairwise (fun a b => le a.1 b.1 = true) :=
  StableSort.sortBy_pairwise (fun a b c => le_trans a.1 b.1 c.1) (fun a b => le_total a.1 b.1) _

theorem under_nodup {s : State} (hd : KV.Distinct s.arch) (pre : Str) : ((under s pre).map (·.1)).Nodup := by
  unfold under
  rw [((StableSort.sortBy_perm _ _).map _).nodup_iff]
  unfold KV.Distinct at hd
  generalize s.arch = m at hd
  induction m with
  | nil => exact .nil
  | cons e m ih =>
    rw [List.map_cons, List.nodup_cons] at hd
    rw [List.filterMap_cons]
    by_cases hp : pre.isPrefixOf e.1 = true
    · rw [if_pos hp]
      dsimp only
      rw [List.map_cons, List.nodup_cons]
      refine ⟨?_, ih hd.2⟩
      intro hm
      obtain ⟨⟨r, v⟩, hr, h1⟩ := List.mem_map.1 hm
      obtain ⟨⟨k, w⟩, hk, h2⟩ := List.mem_filterMap.1 hr
      dsimp only at h1 h2
      split at h2
      · rename_i hq
        injection h2 with h2
        injection h2 with h2 h3
        obtain ⟨a, ha⟩ := List.isPrefixOf_iff_prefix.1 hp
        obtain ⟨b, hb⟩ := List.isPrefixOf_iff_prefix.1 hq
        rw [← hb, List.drop_left] at h2
        rw [← ha, List.drop_left] at h1
        apply hd.1
        rw [← ha, ← h1, ← h2, hb]
        exact List.mem_map.2 ⟨_, hk, rfl⟩
      · cases h2
    · rw [if_neg hp]
      exact ih hd.2

/-- When every entry leads to something, pages of entries are pages of what they lead to. -/
theorem pages_of {α β : Type} (f : α → Option β) (E : List α) (hf : ∀ e ∈ E, (f e).isSome) :
    ∃ L : List β, E.map f = L.map some ∧ ∀ off lim, (page off lim E).filterMap f = (L.drop off).take lim := by
  have : ∃ L : List β, E.map f = L.map some := by
    induction E with
    | nil => exact ⟨[], rfl⟩
    | cons e E ih =>
      obtain ⟨L, hL⟩ := ih (fun e he => hf e (List.mem_cons_of_mem _ he))
      obtain ⟨b, hb⟩ := Option.isSome_iff_exists.1 (hf e List.mem_cons_self)
      exact ⟨b :: L, by rw [List.map_cons, List.map_cons, hb, hL]⟩
  obtain ⟨L, hL⟩ := this
  refine ⟨L, hL, fun off lim => ?_⟩
  have h1 : ∀ l : List α, l.filterMap f = (l.map f).filterMap id := fun l => by
    rw [List.filterMap_map]; rfl
  rw [h1]
  unfold page
  rw [List.map_take, List.map_drop, hL, ← List.map_drop, ← List.map_take, List.filterMap_map]
  exact List.filterMap_some

theorem map_keys {f : Str × Val → Option Tx} {E : List (Str × Val)} {L : List Tx} (h : E.map f = L.map some)
    (hk : ∀ e ∈ E, ∀ t, f e = some t → e.1 = dec t.number) : E.map (·.1) = L.map (fun t => dec t.number) := by
  induction E generalizing L with
  | nil =>
    cases L with
    | nil => rfl
    | cons => cases h
  | cons e E ih =>
    cases L with
    | nil => cases h
    | cons t L =>
      rw [List.map_cons, List.map_cons] at h
      injection h with h1 h2
      rw [List.map_cons, List.map_cons, hk e List.mem_cons_self t h1,
        ih h2 (fun e he => hk e (List.mem_cons_of_mem _ he))]

theorem mem_of_map {α β : Type} {f : α → Option β} {E : List α} {L : List β} (h : E.map f = L.map some) (b : β) :
    b ∈ L ↔ ∃ e ∈ E, f e = some b := by
  constructor
  · intro hb
    have : some b ∈ E.map f := h ▸ List.mem_map_of_mem hb
    exact List.mem_map.1 this
  · rintro ⟨e, he, hf⟩
    have : some b ∈ L.map some := by rw [← h, ← hf]; exact List.mem_map_of_mem he
    obtain ⟨b', hb', e⟩ := List.mem_map.1 this
    injection e with e
    rw [← e]; exact hb'

theorem nodup_of_map {α β : Type} (f : α → β) {l : List α} (h : (l.map f).Nodup) : l.Nodup := by
  unfold List.Nodup at *
  rw [List.pairwise_map] at h
  exact h.imp (fun hne e => hne (by rw [e]))

theorem filter_nodup (ops : List Op) (p : Tx → Bool) : ((log ops).filter p).Nodup := by
  refine List.Pairwise.filter _ ?_
  exact (log_sorted ops).imp (fun h e => by rw [e] at h; omega)

/-- Keys under `"tx:"`. -/
theorem text_tx {k : Key} (g : Good k) {r : Str} (h : text k = [116, 120, 58] ++ r) : ∃ n, k = .tx n ∧ r = dec n := by
  cases k <;> simp only [text, List.cons_append, List.nil_append] at h
  all_goals first
    | (exfalso; revert h; simp; done)
    | (exfalso; have := dec_head h; revert this; decide)
    | (obtain ⟨q, hq⟩ := g; exfalso; rw [hq] at h; revert h; simp; done)
    | skip
  exact ⟨_, rfl, (List.append_cancel_left (as := [116, 120, 58]) h).symm⟩

/-- Keys under `"nid:"`. -/
theorem text_nid {k : Key} (g : Good k) {r : Str} (h : text k = [110, 105, 100, 58] ++ r) :
    ∃ c n, k = .index c n ∧ r = dec c ++ dec n := by
  cases k <;> simp only [text, List.cons_append, List.nil_append] at h
  all_goals first
    | (exfalso; revert h; simp; done)
    | (exfalso; have := dec_head h; revert this; decide)
    | (obtain ⟨q, hq⟩ := g; exfalso; rw [hq] at h; revert h; simp; done)
    | skip
  exact ⟨_, _, rfl, (List.append_cancel_left (as := [110, 105, 100, 58]) h).symm⟩

/-- No key is under `"r:"`. -/
theorem text_r {k : Key} (g : Good k) {r : Str} (h : text k = [114, 58] ++ r) : False := by
  cases k <;> simp only [text, List.cons_append, List.nil_append] at h
  all_goals first
    | (revert h; simp; done)
    | (have := dec_head h; revert this; decide)
    | (obtain ⟨q, hq⟩ := g; rw [hq] at h; revert h; simp; done)

theorem get_tx {ops : List Op} (hh : HexHashes ops) {r : Str} {v : Val} :
    KV.get (run ops).arch ([116, 120, 58] ++ r) = some v ↔
      ∃ t ∈ log ops, late t.block = true ∧ r = dec t.number ∧ v = .tx t := by
  constructor
  · intro h
    obtain ⟨k, g, hk⟩ := run_keys hh _ (KV.mem_of_get h)
    obtain ⟨n, rfl, rfl⟩ := text_tx g hk
    obtain ⟨t, ht, hn, hl, hv⟩ := (rd_tx hh true n v).1 h
    exact ⟨t, ht, hl, by rw [hn], hv⟩
  · rintro ⟨t, ht, hl, rfl, rfl⟩
    exact (rd_tx hh true t.number (.tx t)).2 ⟨t, ht, rfl, hl, rfl⟩

theorem follow_iff {ops : List Op} (hh : HexHashes ops) {e : Str × Val} {t : Tx} :
    follow (run ops) e = some t ↔ t ∈ log ops ∧ late t.block = true ∧ e.1 = dec t.number := by
  unfold follow
  constructor
  · intro h
    split at h
    · rename_i u hu
      injection h with h
      obtain ⟨t', ht, hl, hr, hv⟩ := (get_tx hh).1 hu
      injection hv with hv
      rw [← h, hv]
      exact ⟨ht, hl, hr⟩
    · cases h
  · rintro ⟨ht, hl, hr⟩
    rw [(get_tx hh).2 ⟨t, ht, hl, hr, rfl⟩]

theorem mem_index {ops : List Op} (hh : HexHashes ops) {c : Nat} {r : Str} {v : Val} :
    (r, v) ∈ under (run ops) ([110, 105, 100, 58] ++ dec c) ↔
      v = .nothing ∧ ∃ u ∈ log ops, late u.block = true ∧ dec u.cron ++ dec u.number = dec c ++ r := by
  rw [mem_under, ← KV.get_iff_mem (run_distinct ops), List.append_assoc]
  constructor
  · intro h
    obtain ⟨k, g, hk⟩ := run_keys hh _ (KV.mem_of_get h)
    obtain ⟨c', n', rfl, hr⟩ := text_nid g hk
    have h' : rd (run ops) true (.index c' n') = some v := by
      show KV.get _ _ = _
      rw [hk]; exact h
    obtain ⟨hv, u, hu, hl, he⟩ := (rd_index hh c' n' v).1 h'
    exact ⟨hv, u, hu, hl, by rw [he, hr]⟩
  · rintro ⟨rfl, u, hu, hl, he⟩
    have := (rd_index hh u.cron u.number .nothing).2 ⟨rfl, u, hu, hl, rfl⟩
    rw [← he, ← List.append_assoc]
    exact this

theorem late_iff (b : Nat) : late b = true ↔ 34800 < b := by unfold late; exact decide_eq_true_iff

end CronArchive
