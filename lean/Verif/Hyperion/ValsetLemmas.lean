import Verif.Hyperion.Valset
import Verif.Hyperion.KeysLemmas
/-! Helper lemmas about validator sets. -/
namespace Hyperion.Valset
open StableSort

/-! ## Powers -/

theorem total_eq (ms : List Member) : total ms = (ms.map (·.power)).sum % 2 ^ 64 := by
  induction ms with
  | nil => rfl
  | cons m ms ih => simp only [total, ih, List.map_cons, List.sum_cons]; omega

theorem power_le_sum {ms : List Member} {m : Member} (h : m ∈ ms) : m.power ≤ (ms.map (·.power)).sum := by
  induction ms with
  | nil => cases h
  | cons x ms ih =>
    rw [List.map_cons, List.sum_cons]
    rcases List.mem_cons.1 h with rfl | h
    · omega
    · have := ih h; omega

theorem div_le_max {t p : Nat} (ht : 0 < t) (hp : p ≤ t) : p * maxU32 / t ≤ maxU32 := by
  rw [Nat.div_le_iff_le_mul_add_pred ht]
  have : p * maxU32 ≤ t * maxU32 := Nat.mul_le_mul_right _ hp
  omega

theorem norm1_eq {t p : Nat} (ht : 0 < t) (hp : p ≤ t) : norm1 t p = some (p * maxU32 / t) := by
  unfold norm1
  rw [if_neg (by omega), if_pos]
  have := div_le_max ht hp
  have h2 : maxU32 = 4294967295 := rfl
  omega

theorem normalise_eq {t : Nat} (ht : 0 < t) {ms : List Member} (h : ∀ m ∈ ms, m.power ≤ t) :
    normalise t ms = some (ms.map (fun m => ⟨m.power * maxU32 / t, m.addr⟩)) := by
  induction ms with
  | nil => rfl
  | cons m ms ih =>
    simp only [normalise]
    rw [norm1_eq ht (h m List.mem_cons_self), ih (fun x hx => h x (List.mem_cons_of_mem _ hx))]
    rfl

theorem normalise_zero {ms : List Member} (h : ms ≠ []) : normalise 0 ms = none := by
  cases ms with
  | nil => exact absurd rfl h
  | cons m ms => simp [normalise, norm1]

theorem sum_div_le (t k : Nat) (l : List Nat) : t * (l.map (fun p => p * k / t)).sum ≤ l.sum * k := by
  induction l with
  | nil => simp
  | cons p l ih =>
    rw [List.map_cons, List.sum_cons, List.sum_cons, Nat.mul_add, Nat.add_mul]
    have := Nat.mul_div_le (p * k) t
    omega

theorem lt_sum_div {t : Nat} (ht : 0 < t) (k : Nat) {l : List Nat} :
    l.sum * k + l.length ≤ t * ((l.map (fun p => p * k / t)).sum + l.length) := by
  induction l with
  | nil => simp
  | cons p l ih =>
    rw [List.map_cons, List.sum_cons, List.sum_cons, List.length_cons, Nat.add_mul]
    have h1 := Nat.lt_mul_div_succ (p * k) ht
    have h2 : t * (p * k / t + (l.map (fun p => p * k / t)).sum + (l.length + 1)) =
        t * (p * k / t + 1) + t * ((l.map (fun p => p * k / t)).sum + l.length) := by
      rw [← Nat.mul_add]; congr 1; omega
    omega

/-! ## The order of members -/

theorem blt_irrefl (a : Str) : blt a a = false := by
  induction a with
  | nil => rfl
  | cons x a ih => simp [blt_cons, ih]

theorem blt_trans {a b c : Str} (h1 : blt a b = true) (h2 : blt b c = true) : blt a c = true := by
  induction a generalizing b c with
  | nil =>
    cases c with
    | nil => simp [blt_nil] at h2
    | cons => rfl
  | cons x a ih =>
    cases b with
    | nil => simp [blt_nil] at h1
    | cons y b =>
      cases c with
      | nil => simp [blt_nil] at h2
      | cons z c =>
        rw [blt_cons_iff] at *
        rcases h1 with h1 | ⟨h1, h1'⟩ <;> rcases h2 with h2 | ⟨h2, h2'⟩
        · left; omega
        · left; omega
        · left; omega
        · right; exact ⟨by omega, ih h1' h2'⟩

theorem blt_total {a b : Str} (h : blt a b = false) (h' : blt b a = false) : a = b := by
  induction a generalizing b with
  | nil =>
    cases b with
    | nil => rfl
    | cons => simp [blt] at h
  | cons x a ih =>
    cases b with
    | nil => simp [blt] at h'
    | cons y b =>
      have h1 : ¬ blt (x :: a) (y :: b) = true := by simp [h]
      have h2 : ¬ blt (y :: b) (x :: a) = true := by simp [h']
      rw [blt_cons_iff] at h1 h2
      have hxy : x.toNat = y.toNat := by omega
      have e : x = y := UInt8.toNat_inj.1 hxy
      subst e
      have := ih (b := b) (by cases hb : blt a b <;> simp_all) (by cases hb : blt b a <;> simp_all)
      rw [this]

theorem memberLe_trans (a b c : Member) (h1 : memberLe a b = true) (h2 : memberLe b c = true) : memberLe a c = true := by
  unfold memberLe at *
  by_cases hab : a.power = b.power
  · by_cases hbc : b.power = c.power
    · rw [if_pos hab] at h1
      rw [if_pos hbc] at h2
      rw [if_pos (hab.trans hbc)]
      simp only [Bool.not_eq_true'] at *
      cases hca : blt c.addr a.addr with
      | false => rfl
      | true =>
        exfalso
        cases hab' : blt a.addr b.addr with
        | true => rw [blt_trans hca hab'] at h2; cases h2
        | false => rw [blt_total hab' h1] at hca; rw [hca] at h2; cases h2
    · rw [if_neg hbc] at h2
      rw [if_neg (by omega)]
      simp only [decide_eq_true_eq] at *
      omega
  · rw [if_neg hab] at h1
    by_cases hbc : b.power = c.power
    · rw [if_neg (by omega)]
      simp only [decide_eq_true_eq] at *
      omega
    · rw [if_neg hbc] at h2
      simp only [decide_eq_true_eq] at *
      rw [if_neg (by omega)]
      simp only [decide_eq_true_eq]
      omega

theorem memberLe_total (a b : Member) : (memberLe a b || memberLe b a) = true := by
  unfold memberLe
  by_cases h : a.power = b.power
  · rw [if_pos h, if_pos h.symm]
    cases h1 : blt b.addr a.addr with
    | false => simp
    | true =>
      cases h2 : blt a.addr b.addr with
      | false => simp
      | true => have := blt_trans h1 h2; rw [blt_irrefl] at this; cases this
  · rw [if_neg h, if_neg (fun e => h e.symm)]
    simp only [Bool.or_eq_true, decide_eq_true_eq]
    omega

/-! ## The distance of two sets -/

/-- The value of an address in the map of `PowerDiff`. -/
def val (m : List (Str × Int)) (a : Str) : Int := (KV.get m a).getD 0

theorem val_set (m : List (Str × Int)) (k a : Str) (v : Int) : val (KV.set m k v) a = if a = k then v else val m a := by
  unfold val
  rw [KV.get_set]
  split <;> rfl

theorem subtract_val (m : List (Str × Int)) (x : Member) (a : Str) :
    val (subtract m x) a = val m a - (if a = x.addr then (x.power : Int) else 0) := by
  unfold subtract
  cases h : KV.get m x.addr with
  | none =>
    simp only
    rw [val_set]
    by_cases e : a = x.addr
    · rw [if_pos e, if_pos e, e]; simp [val, h]
    · rw [if_neg e, if_neg e]; simp
  | some v =>
    simp only
    rw [val_set]
    by_cases e : a = x.addr
    · rw [if_pos e, if_pos e, e]; simp [val, h]
    · rw [if_neg e, if_neg e]; simp

theorem subtract_keys (m : List (Str × Int)) (x : Member) (hd : KV.Distinct m) :
    KV.Distinct (subtract m x) ∧ ∀ e ∈ subtract m x, e.1 = x.addr ∨ ∃ e' ∈ m, e'.1 = e.1 := by
  have hmem : ∀ (v : Int) (e : Str × Int), e ∈ KV.set m x.addr v → e.1 = x.addr ∨ ∃ e' ∈ m, e'.1 = e.1 := by
    intro v e he
    rcases KV.mem_set.1 he with rfl | ⟨h, _⟩
    · exact .inl rfl
    · exact .inr ⟨e, h, rfl⟩
  unfold subtract
  split
  · exact ⟨KV.distinct_set hd _ _, hmem _⟩
  · exact ⟨KV.distinct_set hd _ _, hmem _⟩

theorem foldl_subtract (c : List Member) (m : List (Str × Int)) (hd : KV.Distinct m) :
    KV.Distinct (c.foldl subtract m) ∧
    (∀ e ∈ c.foldl subtract m, (∃ x ∈ c, x.addr = e.1) ∨ ∃ e' ∈ m, e'.1 = e.1) ∧
    (∀ a, val (c.foldl subtract m) a = val m a - ((c.filter (fun x => decide (x.addr = a))).map (·.power)).sum) := by
  induction c generalizing m with
  | nil => exact ⟨hd, fun e he => .inr ⟨e, he, rfl⟩, fun a => by simp⟩
  | cons x c ih =>
    obtain ⟨h1, h2⟩ := subtract_keys m x hd
    obtain ⟨i1, i2, i3⟩ := ih (subtract m x) h1
    refine ⟨i1, ?_, ?_⟩
    · intro e he
      rcases i2 e he with ⟨y, hy, e1⟩ | ⟨e', he', e1⟩
      · exact .inl ⟨y, List.mem_cons_of_mem _ hy, e1⟩
      · rcases h2 e' he' with h | ⟨e2, he2, h⟩
        · exact .inl ⟨x, List.mem_cons_self, by rw [← h, e1]⟩
        · exact .inr ⟨e2, he2, by rw [h, e1]⟩
    · intro a
      rw [List.foldl_cons, i3 a, subtract_val, List.filter_cons]
      by_cases e : x.addr = a
      · simp only [e, decide_true, ↓reduceIte, List.map_cons, List.sum_cons, Int.natCast_add]; omega
      · have e' : ¬ a = x.addr := fun h => e h.symm
        simp only [e, e', decide_false, Bool.false_eq_true, ↓reduceIte]; omega

/-- The total power of the members with an address. -/
def powerAt (ms : List Member) (a : Str) : Nat := ((ms.filter (fun x => decide (x.addr = a))).map (·.power)).sum

theorem powersOf_aux (b : List Member) (m : List (Str × Int)) (hd : KV.Distinct m)
    (hb : (b.map (·.addr)).Nodup) (hm : ∀ x ∈ b, ∀ e ∈ m, e.1 ≠ x.addr) :
    KV.Distinct (b.foldl (fun m x => KV.set m x.addr (x.power : Int)) m) ∧
    (∀ e ∈ b.foldl (fun m x => KV.set m x.addr (x.power : Int)) m, (∃ x ∈ b, x.addr = e.1) ∨ ∃ e' ∈ m, e'.1 = e.1) ∧
    (∀ a, val (b.foldl (fun m x => KV.set m x.addr (x.power : Int)) m) a = val m a + powerAt b a) := by
  induction b generalizing m with
  | nil => exact ⟨hd, fun e he => .inr ⟨e, he, rfl⟩, fun a => by simp [powerAt]⟩
  | cons x b ih =>
    rw [List.map_cons, List.nodup_cons] at hb
    obtain ⟨i1, i2, i3⟩ := ih (KV.set m x.addr x.power) (KV.distinct_set hd _ _) hb.2 (by
      intro y hy e he
      rcases KV.mem_set.1 he with rfl | ⟨h, _⟩
      · intro e1
        have e2 : x.addr = y.addr := e1
        exact hb.1 (by rw [e2]; exact List.mem_map_of_mem (f := (·.addr)) hy)
      · exact hm y (List.mem_cons_of_mem _ hy) e h)
    refine ⟨i1, ?_, ?_⟩
    · intro e he
      rcases i2 e he with ⟨y, hy, e1⟩ | ⟨e', he', e1⟩
      · exact .inl ⟨y, List.mem_cons_of_mem _ hy, e1⟩
      · rcases KV.mem_set.1 he' with rfl | ⟨h, _⟩
        · exact .inl ⟨x, List.mem_cons_self, e1⟩
        · exact .inr ⟨e', h, e1⟩
    · intro a
      rw [List.foldl_cons, i3 a, val_set]
      unfold powerAt
      rw [List.filter_cons]
      have h0 : val m x.addr = 0 := by
        unfold val
        rw [KV.get_eq_none.2 (fun e he => hm x List.mem_cons_self e he)]
        rfl
      by_cases e : x.addr = a
      · subst e
        simp only [decide_true, ↓reduceIte, List.map_cons, List.sum_cons, Int.natCast_add, h0]; omega
      · have e' : ¬ a = x.addr := fun h => e h.symm
        simp only [e, e', decide_false, Bool.false_eq_true, ↓reduceIte]

theorem sum_val {m : List (Str × Int)} (hd : KV.Distinct m) {L : List Str} (hL : L.Nodup)
    (h : ∀ e ∈ m, e.1 ∈ L) : (m.map (fun e => e.2.natAbs)).sum = (L.map (fun a => (val m a).natAbs)).sum := by
  induction m generalizing L with
  | nil =>
    have : ∀ L : List Str, (L.map (fun a => (val [] a).natAbs)).sum = 0 := by
      intro L
      induction L with
      | nil => rfl
      | cons a L ih => rw [List.map_cons, List.sum_cons, ih]; rfl
    rw [this]; rfl
  | cons e m ih =>
    unfold KV.Distinct at hd
    rw [List.map_cons, List.nodup_cons] at hd
    have he : e.1 ∈ L := h e List.mem_cons_self
    have hp := List.perm_cons_erase he
    rw [(hp.map (fun a => (val (e :: m) a).natAbs)).sum_nat, List.map_cons, List.sum_cons, List.map_cons, List.sum_cons,
      ih hd.2 (hL.erase e.1) (by
        intro x hx
        rw [hL.mem_erase_iff]
        exact ⟨fun hc => hd.1 (hc ▸ List.mem_map_of_mem (f := (·.1)) hx), h x (List.mem_cons_of_mem _ hx)⟩)]
    congr 1
    · simp [val, KV.get_cons]
    · congr 1
      apply List.map_congr_left
      intro a ha
      rw [hL.mem_erase_iff] at ha
      have : ¬ e.1 = a := fun hc => ha.1 hc.symm
      simp [val, KV.get_cons, this]

theorem powerDiff_eq {b c : List Member} (hb : (b.map (·.addr)).Nodup) {L : List Str} (hL : L.Nodup)
    (h1 : ∀ x ∈ b, x.addr ∈ L) (h2 : ∀ x ∈ c, x.addr ∈ L) :
    powerDiff b c = (L.map (fun a => ((powerAt b a : Int) - powerAt c a).natAbs)).sum := by
  obtain ⟨p1, p2, p3⟩ := powersOf_aux b [] (by exact List.nodup_nil) hb (by intro x _ e he; cases he)
  obtain ⟨q1, q2, q3⟩ := foldl_subtract c (powersOf b) p1
  unfold powerDiff
  rw [sum_val q1 hL]
  · congr 1
    apply List.map_congr_left
    intro a _
    rw [q3 a]
    have : val (powersOf b) a = powerAt b a := by
      have := p3 a
      unfold powersOf
      rw [this]
      simp [val, KV.get_nil]
    rw [this]
    rfl
  · intro e he
    rcases q2 e he with ⟨x, hx, e1⟩ | ⟨e', he', e1⟩
    · exact e1 ▸ h2 x hx
    · rcases p2 e' he' with ⟨x, hx, e2⟩ | ⟨_, h, _⟩
      · rw [← e1, ← e2]; exact h1 x hx
      · cases h

/-! ## Histories -/

/-- What holds after every history: keys are nonces, and nothing lies beyond the next nonce. -/
structure Inv (s : State) : Prop where
  dist : KV.Distinct s.store
  key : ∀ e ∈ s.store, e.2.nonce = e.1
  height : ∀ e ∈ s.store, e.2.height ≤ s.height

theorem prune_get (s : State) (w n : Nat) (hd : KV.Distinct s.store) :
    KV.get (prune s w).store n =
      match KV.get s.store n with
      | none => none
      | some v => if (∃ o, s.observed = some o ∧ w ≤ s.height ∧ v.nonce < o ∧ v.height < s.height - w) then none else some v := by
  unfold prune
  cases ho : s.observed with
  | none => cases KV.get s.store n <;> simp
  | some o =>
    simp only
    split
    · rename_i h
      cases KV.get s.store n with
      | none => rfl
      | some v => simp only; rw [if_neg]; rintro ⟨o', _, h', _⟩; omega
    · rename_i h
      simp only
      have hd' : KV.Distinct (s.store.filter (fun e => !prunable s w o e.2)) :=
        List.Nodup.sublist (List.filter_sublist.map _) hd
      cases hg : KV.get s.store n with
      | none =>
        simp only
        rw [KV.get_eq_none] at hg ⊢
        intro e he
        exact hg e (List.mem_filter.1 he).1
      | some v =>
        simp only
        have hm := KV.mem_of_get hg
        split
        · rename_i hx
          obtain ⟨o', e, _, h1, h2⟩ := hx
          cases e
          rw [KV.get_eq_none]
          intro e he hc
          obtain ⟨h3, h4⟩ := List.mem_filter.1 he
          have h5 : KV.get s.store n = some e.2 := KV.get_of_mem hd (by rw [← hc]; exact h3)
          rw [hg] at h5
          cases h5
          simp [prunable, h1, h2] at h4
        · rename_i hx
          apply KV.get_of_mem hd'
          rw [List.mem_filter]
          refine ⟨hm, ?_⟩
          simp only [prunable, Bool.not_eq_true', Bool.and_eq_false_iff, decide_eq_false_iff_not]
          by_cases h1 : v.nonce < o
          · by_cases h2 : v.height < s.height - w
            · exact absurd ⟨o, rfl, by omega, h1, h2⟩ hx
            · exact .inr h2
          · exact .inl h1

theorem prune_frame (s : State) (w : Nat) : (prune s w).latest = s.latest ∧ (prune s w).observed = s.observed ∧
    (prune s w).offset = s.offset ∧ (prune s w).height = s.height ∧ (prune s w).store.Sublist s.store := by
  unfold prune
  split
  · exact ⟨rfl, rfl, rfl, rfl, .refl _⟩
  · split
    · exact ⟨rfl, rfl, rfl, rfl, .refl _⟩
    · exact ⟨rfl, rfl, rfl, rfl, List.filter_sublist⟩

theorem prunes_frame (ws : List Nat) (s : State) : (ws.foldl prune s).latest = s.latest ∧
    (ws.foldl prune s).observed = s.observed ∧ (ws.foldl prune s).offset = s.offset ∧
    (ws.foldl prune s).height = s.height ∧ (ws.foldl prune s).store.Sublist s.store := by
  induction ws generalizing s with
  | nil => exact ⟨rfl, rfl, rfl, rfl, .refl _⟩
  | cons w ws ih =>
    obtain ⟨a1, a2, a3, a4, a5⟩ := ih (prune s w)
    obtain ⟨b1, b2, b3, b4, b5⟩ := prune_frame s w
    exact ⟨a1.trans b1, a2.trans b2, a3.trans b3, a4.trans b4, a5.trans b5⟩

theorem Inv.sub {s t : State} (i : Inv s) (h : t.store.Sublist s.store) (hh : s.height ≤ t.height) : Inv t :=
  ⟨List.Nodup.sublist (h.map _) i.dist, fun e he => i.key e (h.mem he),
    fun e he => Nat.le_trans (i.height e (h.mem he)) hh⟩

theorem prunes_get (ws : List Nat) (s : State) (n : Nat) (hd : KV.Distinct s.store) :
    KV.get (ws.foldl prune s).store n = KV.get s.store n ∨
    (KV.get (ws.foldl prune s).store n = none ∧ ∃ v o w, KV.get s.store n = some v ∧ s.observed = some o ∧ w ∈ ws ∧
      v.nonce < o ∧ v.height + w < s.height) := by
  induction ws generalizing s with
  | nil => exact .inl rfl
  | cons w ws ih =>
    obtain ⟨b1, b2, b3, b4, b5⟩ := prune_frame s w
    have hg := prune_get s w n hd
    have hi := ih (prune s w) (List.Nodup.sublist (b5.map _) hd)
    rw [List.foldl_cons]
    cases hs : KV.get s.store n with
    | none =>
      rw [hs] at hg
      simp only at hg
      rw [hg] at hi
      rcases hi with h | ⟨h, _⟩
      · exact .inl h
      · exact .inl h
    | some v =>
      rw [hs] at hg
      simp only at hg
      split at hg
      · rename_i hx
        obtain ⟨o, h1, h2, h3, h4⟩ := hx
        right
        refine ⟨?_, v, o, w, rfl, h1, List.mem_cons_self, h3, by omega⟩
        rw [hg] at hi
        rcases hi with h | ⟨h, _⟩ <;> exact h
      · rw [hg] at hi
        rcases hi with h | ⟨h, v', o, w', h1, h2, h3, h4, h5⟩
        · exact .inl h
        · cases h1
          exact .inr ⟨h, v, o, w', rfl, b2 ▸ h2, List.mem_cons_of_mem _ h3, h4, b4 ▸ h5⟩

theorem request_inv {s : State} (i : Inv s) (ms : List Member) : Inv (request s ms) := by
  unfold request
  split
  · exact i
  · refine ⟨KV.distinct_set i.dist _ _, ?_, ?_⟩
    · intro e he
      rcases KV.mem_set.1 he with rfl | ⟨h, _⟩
      · rfl
      · exact i.key e h
    · intro e he
      rcases KV.mem_set.1 he with rfl | ⟨h, _⟩
      · exact Nat.le_refl _
      · exact i.height e h

/-- The state in which the sets of a block are pruned. -/
theorem block_eq {s s' : State} {vals : List Val} {u : Nat} {ws : List Nat} (h : step s (.block vals u ws) = some s') :
    ∃ ms, current vals = some ms ∧
      s' = ws.foldl prune (if wants { s with height := s.height + 1 } u ms then request { s with height := s.height + 1 } ms
        else { s with height := s.height + 1 }) := by
  unfold step create at h
  dsimp only at h
  cases hc : current vals with
  | none => rw [hc] at h; cases h
  | some ms =>
    rw [hc] at h
    exact ⟨ms, rfl, (Option.some.inj h).symm⟩

theorem bump_inv {s : State} (i : Inv s) : Inv { s with height := s.height + 1 } :=
  ⟨i.dist, i.key, fun e he => Nat.le_succ_of_le (i.height e he)⟩

theorem step_inv {s s' : State} {op : Op} (i : Inv s) (h : step s op = some s') : Inv s' := by
  cases op with
  | observe n => cases h; exact ⟨i.dist, i.key, i.height⟩
  | setOffset n => cases h; exact ⟨i.dist, i.key, i.height⟩
  | block vals u ws =>
    obtain ⟨ms, _, rfl⟩ := block_eq h
    have j : Inv (if wants { s with height := s.height + 1 } u ms then request { s with height := s.height + 1 } ms
        else { s with height := s.height + 1 }) := by
      split
      · exact request_inv (bump_inv i) ms
      · exact bump_inv i
    obtain ⟨_, _, _, h4, h5⟩ := prunes_frame ws (if wants { s with height := s.height + 1 } u ms then
      request { s with height := s.height + 1 } ms else { s with height := s.height + 1 })
    exact j.sub h5 (by omega)

theorem run_inv {ops : List Op} {s : State} (h : run ops = some s) : Inv s := by
  induction ops generalizing s with
  | nil => cases h; exact ⟨List.nodup_nil, fun e he => (by cases he), fun e he => (by cases he)⟩
  | cons op ops ih =>
    unfold run at h
    cases hr : run ops with
    | none => rw [hr] at h; cases h
    | some t =>
      rw [hr] at h
      exact step_inv (ih hr) h

end Hyperion.Valset
